import Verif.WinRecursiveMutex.Model
/-! # Property C06: the Windows recursive mutex

The specification is the abstract recursive mutex of `RecursiveMutex/Spec.lean` (owner and depth). -/

namespace Verif.WinRecursiveMutex
open Verif.RecursiveMutex (Holder)

/-- The abstract recursive mutex with depths up to `lim`; calling `unlock` without holding the mutex is outside the contract. -/
def specNext (lim : Option Nat) (h : Holder) : Event → Verdict Holder
  | .ret e => RecursiveMutex.specNext lim h e
  | .unlocking t =>
    match h with
    | none => .undefined
    | some (u, _) => if u = t then .ok h else .undefined

/-- What the position of a thread says about owner and counters. -/
def pcOk (s : State) (h : Holder) (t : Nat) : PC → Prop
  | .idle => ∀ d, h = some (t, d) → s.owner = t + 1 ∧ s.recs = d
  | .bump _ => ∃ d, h = some (t, d) ∧ s.owner = t + 1 ∧ s.recs = d
  | .enter _ => ∀ d, h ≠ some (t, d)
  | .inside => ∀ d, h ≠ some (t, d)
  | .own => h = some (t, 1) ∧ s.owner = 0
  | .count => h = some (t, 1) ∧ s.owner = t + 1
  | .release => h = some (t, 1) ∧ s.owner = t + 1
  | .releasing => h = some (t, 1) ∧ s.owner = 0

structure R (s : State) (h : Holder) : Prop where
  mx : WinMutex.R s.m (h.map Prod.fst)
  own : ∀ t, s.owner = t + 1 → ∃ d, h = some (t, d)
  depth : ∀ t d, h = some (t, d) → 1 ≤ d ∧ d < 2147483648
  pcs : ∀ (t : Nat) (p : PC), s.ts[t]? = some p → pcOk s h t p

/-- The thread a label belongs to. -/
def lt : WinMutex.Label → Nat
  | .call t _ => t
  | .tryLock t => t
  | .unlock t => t
  | .next t => t
  | .giveUp t => t

def et : WinMutex.Event → Nat
  | .locked t => t
  | .tryLocked t _ => t
  | .timedLocked t _ => t
  | .unlocked t => t

theorem et_acquired (t : Nat) (b : Bool) : et (WinMutex.acquired t b) = t := by cases b <;> rfl
theorem acquired_ne (t u : Nat) (b : Bool) : WinMutex.acquired t b ≠ .unlocked u := by cases b <;> simp [WinMutex.acquired]

theorem inner_event {s s' : WinMutex.State} {l : WinMutex.Label} {e : WinMutex.Event} {es : List WinMutex.Event}
    (h : WinMutex.step s l = some (s', e :: es)) :
    et e = lt l ∧ ((∃ t, e = .unlocked t) ↔ ∃ t, l = .unlock t) := by
  cases l <;> simp only [WinMutex.step] at h <;> (repeat' split at h) <;> cases h <;>
    simp [et_acquired, acquired_ne, lt] <;> rfl

theorem mem_others {s : State} {t u : Nat} {p q r : PC} (hp : s.ts[t]? = some p) (hu : (s.ts.set t q)[u]? = some r) :
    (u = t ∧ r = q) ∨ (u ≠ t ∧ s.ts[u]? = some r) := by
  rw [getElem?_set_eq hp] at hu
  split at hu
  · next h => cases hu; exact Or.inl ⟨h.symm, rfl⟩
  · next h => exact Or.inr ⟨Ne.symm h, hu⟩

/-- Steps of the underlying mutex, on behalf of a thread that does not own the recursive mutex or is releasing it. -/
theorem delegate_sim {s s' : State} {h : Holder} {t : Nat} {p q : PC} {l : WinMutex.Label} {es : List Event} {lim : Nat}
    (hR : R s h) (hp : s.ts[t]? = some p) (hl : lt l = t)
    (hcase : (p = .releasing ∧ l = .unlock t ∧ q = .idle) ∨
      ((∀ d, h ≠ some (t, d)) ∧ (∀ u, l ≠ .unlock u) ∧ q = .inside) ∨
      (p = .idle ∧ q = .idle ∧ l = .next t ∧ (s.m.ts[t]? = some .unlocking ∨ s.m.ts[t]? = some .setting)))
    (hs : delegate s t q l = some (s', es)) : Follows (specNext (some lim)) (R s') h es := by
  have hpc := hR.pcs t p hp
  simp only [delegate] at hs
  split at hs
  · next m hm =>
    cases hs
    have hR' := WinMutex.step_sim hR.mx hm
    simp only [Follows] at hR' ⊢
    refine ⟨hR', hR.own, hR.depth, ?_⟩
    intro u r hu
    rcases mem_others hp hu with ⟨rfl, rfl⟩ | ⟨hne, hu⟩
    · rcases hcase with ⟨rfl, rfl, rfl⟩ | ⟨h1, h2, rfl⟩ | ⟨rfl, rfl, h2⟩
      · -- an unlock always reports
        simp only [WinMutex.step] at hm
        (repeat' split at hm) <;> cases hm
      · exact h1
      · exact hpc
    · exact hR.pcs u r hu
  · next m e hm =>
    cases hs
    have hR' := WinMutex.step_sim hR.mx hm
    obtain ⟨he, hun⟩ := inner_event hm
    rw [hl] at he
    rcases hcase with ⟨rfl, rfl, rfl⟩ | ⟨h1, h2, rfl⟩ | ⟨rfl, rfl, rfl, h2⟩
    · obtain ⟨x, rfl⟩ := hun.mpr ⟨t, rfl⟩
      simp only [et] at he
      subst he
      obtain ⟨hh, ho⟩ := hpc
      subst hh
      simp only [Follows, Option.map_some, WinMutex.specNext, if_true] at hR'
      simp only [Follows, convert, specNext, RecursiveMutex.specNext, ne_eq, not_true_eq_false, if_false, if_true, after]
      refine ⟨hR', ?_, by simp, ?_⟩
      · intro u hu; simp only [ho] at hu; omega
      · intro u r hu
        rcases mem_others hp hu with ⟨rfl, rfl⟩ | ⟨hne, hu⟩
        · simp [pcOk]
        · have := hR.pcs u r hu
          cases r <;> simp only [pcOk, Option.some.injEq, Prod.mk.injEq] at this ⊢ <;> grind
    · have hnotun : ∀ x, e ≠ .unlocked x := fun x hx => by obtain ⟨u, hu⟩ := hun.mp ⟨x, hx⟩; exact h2 u hu
      -- success
      have succ : h = none → ∀ e' : WinMutex.Event, WinMutex.R m (some t) → after e' = .own →
          R { s with m := m, ts := s.ts.set t (after e') } (some (t, 1)) := by
        intro hh e' hm' ha
        subst hh
        refine ⟨hm', ?_, ?_, ?_⟩
        · intro u hu; obtain ⟨d, hd⟩ := hR.own u hu; cases hd
        · intro u d hd; cases hd; omega
        · intro u r hu
          have hz : s.owner = 0 := by
            cases ho : s.owner with
            | zero => rfl
            | succ k => obtain ⟨d, hd⟩ := hR.own k ho; cases hd
          rcases mem_others hp hu with ⟨rfl, rfl⟩ | ⟨hne, hu⟩
          · rw [ha]; exact ⟨rfl, hz⟩
          · have := hR.pcs u r hu
            cases r <;> simp only [pcOk, Option.some.injEq, Prod.mk.injEq] at this ⊢ <;> grind
      -- failure
      have fail : ∀ e' : WinMutex.Event, WinMutex.R m (h.map Prod.fst) → after e' = .idle →
          R { s with m := m, ts := s.ts.set t (after e') } h := by
        intro e' hm' ha
        refine ⟨hm', hR.own, hR.depth, ?_⟩
        intro u r hu
        rcases mem_others hp hu with ⟨rfl, rfl⟩ | ⟨hne, hu⟩
        · rw [ha]; intro d hd; exact absurd hd (h1 d)
        · exact hR.pcs u r hu
      have hne : ∀ u d, h = some (u, d) → ¬ u = t := fun u d hh he => h1 d (by rw [hh, he])
      cases e with
      | unlocked x => exact absurd rfl (hnotun x)
      | locked x =>
        simp only [et] at he; subst he
        rcases h with _ | ⟨u, d⟩
        · exact succ rfl (.locked x) hR' rfl
        · exact absurd hR' (by simp [Follows, WinMutex.specNext])
      | tryLocked x r =>
        simp only [et] at he; subst he
        rcases h with _ | ⟨u, d⟩ <;> cases r
        · exact absurd hR' (by simp [Follows, WinMutex.specNext])
        · exact succ rfl (.tryLocked x true) hR' rfl
        · have := fail (.tryLocked x false) hR' rfl
          simpa [Follows, convert, specNext, RecursiveMutex.specNext, hne u d rfl] using this
        · exact absurd hR' (by simp [Follows, WinMutex.specNext])
      | timedLocked x r =>
        simp only [et] at he; subst he
        rcases h with _ | ⟨u, d⟩ <;> cases r
        · exact fail (.timedLocked x false) hR' rfl
        · exact succ rfl (.timedLocked x true) hR' rfl
        · have := fail (.timedLocked x false) hR' rfl
          simpa [Follows, convert, specNext, RecursiveMutex.specNext, hne u d rfl] using this
        · exact absurd hR' (by simp [Follows, WinMutex.specNext])
    · -- finishing an unlock never reports
      rcases h2 with h2 | h2 <;> simp only [WinMutex.step, h2] at hm <;> (repeat' split at hm) <;> cases hm
  · cases hs

theorem step_sim {s s' : State} {l : Label} {es : List Event} {h : Holder} (hR : R s h)
    (hs : step s l = some (s', es)) : Follows (specNext (some 2147483647)) (R s') h es := by
  cases l with
  | call t k =>
    simp only [step] at hs
    (repeat' split at hs) <;> cases hs
    all_goals
      next ht _ ho =>
      refine ⟨hR.mx, hR.own, hR.depth, ?_⟩
      intro u r hu
      have hpc := hR.pcs t _ ht
      rcases mem_others ht hu with ⟨rfl, rfl⟩ | ⟨hne, hu⟩
      · first
        | (obtain ⟨d, hd⟩ := hR.own _ ho; exact ⟨d, hd, hpc d hd⟩)
        | (intro d hd; exact ho (hpc d hd).1)
      · exact hR.pcs u r hu
  | unlock t =>
    simp only [step] at hs
    split at hs
    · next ht _ =>
      have hpc := hR.pcs t _ ht
      by_cases hcl : ∃ d, h = some (t, d)
      · obtain ⟨d, rfl⟩ := hcl
        obtain ⟨ho, hr⟩ := hpc d rfl
        obtain ⟨hd1, hd2⟩ := hR.depth t d rfl
        have hc : (s.recs + (modulus - 1)) % modulus = d - 1 := by
          rw [hr]; simp only [modulus]; omega
        rw [hc] at hs
        split at hs
        · next hz =>
          simp only [Option.some.injEq, Prod.mk.injEq] at hs
          obtain ⟨rfl, rfl⟩ := hs
          have : d = 1 := by omega
          subst this
          simp only [Follows, specNext, if_true]
          refine ⟨hR.mx, hR.own, hR.depth, ?_⟩
          intro u r hu
          rcases mem_others ht hu with ⟨rfl, rfl⟩ | ⟨hne, hu⟩
          · exact ⟨rfl, ho⟩
          · have := hR.pcs u r hu
            cases r <;> simp only [pcOk, Option.some.injEq, Prod.mk.injEq] at this ⊢ <;> grind
        · next hz =>
          simp only [Option.some.injEq, Prod.mk.injEq] at hs
          obtain ⟨rfl, rfl⟩ := hs
          have hd : ¬ d = 1 := by omega
          simp only [Follows, specNext, if_true, RecursiveMutex.specNext, ne_eq, not_true_eq_false, if_false, hd]
          refine ⟨hR.mx, ?_, ?_, ?_⟩
          · intro u hu
            obtain ⟨x, hx⟩ := hR.own u hu
            cases hx
            exact ⟨_, rfl⟩
          · intro u x hx; cases hx; omega
          · intro u r hu
            by_cases hut : u = t
            · subst hut
              rw [ht] at hu; cases hu
              intro x hx; cases hx; exact ⟨ho, rfl⟩
            · have := hR.pcs u r hu
              cases r <;> simp only [pcOk, Option.some.injEq, Prod.mk.injEq] at this ⊢ <;> grind
      · have hun : specNext (some 2147483647) h (.unlocking t) = .undefined := by
          rcases h with _ | ⟨u, d⟩
          · rfl
          · have : u ≠ t := fun hu => hcl ⟨d, by rw [hu]⟩
            simp [specNext, this]
        split at hs <;> (simp only [Option.some.injEq, Prod.mk.injEq] at hs; obtain ⟨rfl, rfl⟩ := hs; simp [Follows, hun])
    · cases hs
  | next t =>
    simp only [step] at hs
    split at hs
    · next k ht =>
      simp only [Option.some.injEq, Prod.mk.injEq] at hs
      obtain ⟨rfl, rfl⟩ := hs
      obtain ⟨d, rfl, ho, hr⟩ := hR.pcs t _ ht
      obtain ⟨hd1, hd2⟩ := hR.depth t d rfl
      have hc : (s.recs + 1) % modulus = d + 1 := by rw [hr]; simp only [modulus]; omega
      rw [hc]
      have key : d < 2147483647 → R { s with recs := d + 1, ts := s.ts.set t .idle } (some (t, d + 1)) := by
        intro hd
        refine ⟨hR.mx, ?_, ?_, ?_⟩
        · intro u hu
          obtain ⟨x, hx⟩ := hR.own u hu
          cases hx
          exact ⟨_, rfl⟩
        · intro u x hx; cases hx; omega
        · intro u r hu
          rcases mem_others ht hu with ⟨rfl, rfl⟩ | ⟨hne, hu⟩
          · intro x hx; cases hx; exact ⟨ho, rfl⟩
          · have := hR.pcs u r hu
            cases r <;> simp only [pcOk, Option.some.injEq, Prod.mk.injEq] at this ⊢ <;> grind
      by_cases hd : d < 2147483647
      · cases k <;> simpa [Follows, acquired, specNext, RecursiveMutex.specNext, RecursiveMutex.specAcquire, hd] using key hd
      · cases k <;> simp [Follows, acquired, specNext, RecursiveMutex.specNext, RecursiveMutex.specAcquire, hd]
    · next k ht =>
      refine delegate_sim hR ht (by cases k <;> rfl) (Or.inr (Or.inl ⟨hR.pcs t _ ht, ?_, rfl⟩)) hs
      intro u; cases k <;> simp [inner]
    · next ht =>
      exact delegate_sim hR ht rfl (Or.inr (Or.inl ⟨hR.pcs t _ ht, by simp, rfl⟩)) hs
    · next ht =>
      cases hs
      obtain ⟨rfl, ho⟩ := hR.pcs t _ ht
      refine ⟨hR.mx, ?_, hR.depth, ?_⟩
      · intro u hu; simp only [Nat.add_right_cancel_iff] at hu; subst hu; exact ⟨1, rfl⟩
      · intro u r hu
        rcases mem_others ht hu with ⟨rfl, rfl⟩ | ⟨hne, hu⟩
        · exact ⟨rfl, rfl⟩
        · have := hR.pcs u r hu
          cases r <;> simp only [pcOk, Option.some.injEq, Prod.mk.injEq] at this ⊢ <;> grind
    · next ht =>
      cases hs
      obtain ⟨rfl, ho⟩ := hR.pcs t _ ht
      refine ⟨hR.mx, hR.own, hR.depth, ?_⟩
      intro u r hu
      rcases mem_others ht hu with ⟨rfl, rfl⟩ | ⟨hne, hu⟩
      · intro d hd; cases hd; exact ⟨ho, rfl⟩
      · have := hR.pcs u r hu
        cases r <;> simp only [pcOk, Option.some.injEq, Prod.mk.injEq] at this ⊢ <;> grind
    · next ht =>
      cases hs
      obtain ⟨rfl, ho⟩ := hR.pcs t _ ht
      refine ⟨hR.mx, (fun u hu => by cases hu), hR.depth, ?_⟩
      intro u r hu
      rcases mem_others ht hu with ⟨rfl, rfl⟩ | ⟨hne, hu⟩
      · exact ⟨rfl, rfl⟩
      · have := hR.pcs u r hu
        cases r <;> simp only [pcOk, Option.some.injEq, Prod.mk.injEq] at this ⊢ <;> grind
    · next ht => exact delegate_sim hR ht rfl (Or.inl ⟨rfl, rfl, rfl⟩) hs
    · next ht =>
      split at hs
      · next hm => exact delegate_sim hR ht rfl (Or.inr (Or.inr ⟨rfl, rfl, rfl, Or.inl hm⟩)) hs
      · next hm => exact delegate_sim hR ht rfl (Or.inr (Or.inr ⟨rfl, rfl, rfl, Or.inr hm⟩)) hs
      · cases hs
    · cases hs
  | giveUp t =>
    simp only [step] at hs
    split at hs
    · next ht => exact delegate_sim hR ht rfl (Or.inr (Or.inl ⟨hR.pcs t _ ht, by simp, rfl⟩)) hs
    · cases hs

theorem R_init (n : Nat) : R (init n) none := by
  refine ⟨WinMutex.R_init n, ?_, by simp, ?_⟩
  · intro t ht; simp [init] at ht
  · intro t p hp
    simp only [init, List.getElem?_replicate] at hp
    split at hp <;> cases hp
    simp [pcOk]

/-- **C06.** Full statement: every history is one of the abstract recursive mutex with unbounded depth. Proved up to depth
2^31 - 1, the greatest value of `long recursion_count`; beyond it the increment overflows. -/
theorem ownership_and_depth_partial (n : Nat) (ls : List Label) (s : State) (es : List Event)
    (h : run step (init n) ls = some (s, es)) : Accepts (specNext (some (2 ^ 31 - 1))) none es :=
  simulation R (fun _ _ _ _ _ hR hs => step_sim hR hs) (R_init n) h

/-- Thread 0 locks twice, thread 1 fails, then blocks; the last unlock hands the mutex to thread 1. -/
def demo : List Label :=
  [.call 0 .lock, .next 0, .next 0, .next 0, .call 0 .timed, .next 0, .call 1 .tryLock, .next 1, .call 1 .lock, .next 1,
   .next 1, .next 1, .unlock 0, .unlock 0, .next 0, .next 0, .next 0, .next 0, .next 1, .next 1, .next 1, .next 1, .call 1 .tryLock,
   .next 1]

example : (run step (init 2) demo).map Prod.snd = some
    [.ret (.locked 0), .ret (.timedLocked 0 true), .ret (.tryLocked 1 false), .unlocking 0, .ret (.unlocked 0), .unlocking 0,
     .ret (.unlocked 0), .ret (.locked 1), .ret (.tryLocked 1 true)] := by decide

/-- **C06, relocking.** The owner's own lock call, of any kind, succeeds in two steps of the owner alone. -/
theorem relock_succeeds (n : Nat) (ls : List Label) (s : State) (es : List Event) (t d : Nat) (k : Kind)
    (h : run step (init n) ls = some (s, es)) (hst : specState (specNext (some (2 ^ 31 - 1))) none es = some (some (t, d)))
    (hidle : s.ts[t]? = some .idle) (hin : s.m.ts[t]? = some .idle) :
    ∃ s', run step s [.call t k, .next t] = some (s', [acquired t k]) := by
  have hR : R s (some (t, d)) := simulation_state R (fun _ _ _ _ _ hR hs => step_sim hR hs) (R_init n) h hst
  have ho := (hR.pcs t _ hidle d rfl).1
  exact ⟨_, by simp [run, step, hidle, hin, ho, getElem?_set_eq hidle]; rfl⟩

example : ∃ s es, run step (init 2) (demo.take 12) = some (s, es) ∧
    specState (specNext (some (2 ^ 31 - 1))) none es = some (some (0, 2)) ∧ s.ts[0]? = some .idle ∧ s.m.ts[0]? = some .idle :=
  ⟨_, _, rfl, by decide, rfl, rfl⟩

/-! ## What a call returns -/

/-- The thread an event belongs to. -/
def Event.thread : Event → Nat
  | .ret (.locked t) | .ret (.tryLocked t _) | .ret (.timedLocked t _) | .ret (.unlocked t) => t
  | .unlocking t => t

/-- What a call may return: `lock()` with the mutex only, the others may also fail. -/
def MayReturn (t : Nat) (e : Event) : Kind → Prop
  | .lock => e = .ret (.locked t)
  | .tryLock => e = .ret (.tryLocked t true) ∨ e = .ret (.tryLocked t false)
  | .timed => e = .ret (.timedLocked t true) ∨ e = .ret (.timedLocked t false)

theorem MayReturn.thread {t : Nat} {k : Kind} {e : Event} (h : MayReturn t e k) : e.thread = t := by
  cases k <;> simp only [MayReturn] at h
  · subst h; rfl
  all_goals rcases h with rfl | rfl <;> rfl

/-- Where a thread can be inside a locking call. -/
def Within (s : State) (t : Nat) (k : Kind) : Prop :=
  s.ts[t]? = some (.bump k) ∨ s.ts[t]? = some (.enter k) ∨
    (s.ts[t]? = some .inside ∧ ∃ timed p, (k = .lock ∧ timed = false ∨ k = .timed ∧ timed = true) ∧ s.m.ts[t]? = some p ∧ WinMutex.Inside timed p)

theorem convert_thread (e : WinMutex.Event) : (convert e).thread = e.thread := by cases e <;> rfl

theorem convert_may {t : Nat} {timed : Bool} {k : Kind} {e : WinMutex.Event} (hk : k = .lock ∧ timed = false ∨ k = .timed ∧ timed = true) (h : WinMutex.MayReturn t timed e) :
    MayReturn t (convert e) k := by
  rcases hk with ⟨rfl, rfl⟩ | ⟨rfl, rfl⟩ <;> simp only [WinMutex.MayReturn, Bool.false_eq_true, ↓reduceIte] at h
  · subst h; rfl
  · rcases h with rfl | rfl <;> simp [MayReturn, convert]

/-- The thread that moves. -/
def Label.thread : Label → Nat
  | .call t _ | .unlock t | .next t | .giveUp t => t

theorem delegate_other {s s' : State} {t u : Nat} {q : PC} {l : WinMutex.Label} {es : List Event} (hl : l.thread = u) (hu : u ≠ t) (hs : delegate s u q l = some (s', es)) :
    s'.ts[t]? = s.ts[t]? ∧ s'.m.ts[t]? = s.m.ts[t]? ∧ ∀ e ∈ es, e.thread ≠ t := by
  simp only [delegate] at hs
  split at hs <;> cases hs
  all_goals
    rename_i hm
    obtain ⟨h1, h2⟩ := WinMutex.step_other (hl ▸ hu) hm
    refine ⟨by simp only [List.getElem?_set_ne hu], h1, ?_⟩
    first | (simp; done) | simpa [convert_thread] using h2

theorem step_other {s s' : State} {l : Label} {es : List Event} {t : Nat} (hl : l.thread ≠ t) (hs : step s l = some (s', es)) :
    s'.ts[t]? = s.ts[t]? ∧ s'.m.ts[t]? = s.m.ts[t]? ∧ ∀ e ∈ es, e.thread ≠ t := by
  cases l with
  | call u k =>
    simp only [Label.thread] at hl
    simp only [step] at hs
    (repeat' split at hs) <;> cases hs <;> simp [List.getElem?_set_ne hl]
  | unlock u =>
    simp only [Label.thread] at hl
    simp only [step] at hs
    (repeat' split at hs) <;> simp only [reduceCtorEq, Option.some.injEq, Prod.mk.injEq] at hs <;> obtain ⟨rfl, rfl⟩ := hs <;> simp [Event.thread, List.getElem?_set_ne hl, hl]
  | giveUp u =>
    simp only [Label.thread] at hl
    simp only [step] at hs
    split at hs
    · exact delegate_other (by rfl) hl hs
    · cases hs
  | next u =>
    simp only [Label.thread] at hl
    simp only [step] at hs
    split at hs
    · rename_i k _
      simp only [Option.some.injEq, Prod.mk.injEq] at hs
      obtain ⟨rfl, rfl⟩ := hs
      cases k <;> simp [acquired, Event.thread, List.getElem?_set_ne hl, hl]
    · rename_i k _
      exact delegate_other (by cases k <;> rfl) hl hs
    · exact delegate_other (by rfl) hl hs
    · cases hs; simp [List.getElem?_set_ne hl]
    · cases hs; simp [List.getElem?_set_ne hl]
    · cases hs; simp [List.getElem?_set_ne hl]
    · exact delegate_other (by rfl) hl hs
    · split at hs
      · exact delegate_other (by rfl) hl hs
      · exact delegate_other (by rfl) hl hs
      · cases hs
    · cases hs

/-- A thread inside a call stays inside, or the call returns what it may. -/
theorem within_step {s s' : State} {l : Label} {es : List Event} {t : Nat} {k : Kind} (hw : Within s t k) (hs : step s l = some (s', es)) :
    ((∀ e ∈ es, e.thread ≠ t) ∧ Within s' t k) ∨ ∃ e, es = [e] ∧ MayReturn t e k := by
  by_cases hl : l.thread = t
  rotate_left
  · obtain ⟨h1, h2, h3⟩ := step_other hl hs
    refine .inl ⟨h3, ?_⟩
    simpa only [Within, h1, h2] using hw
  have inner_case : ∀ (l' : WinMutex.Label), lt l' = t → s.ts[t]? = some .inside → (∃ timed p, (k = .lock ∧ timed = false ∨ k = .timed ∧ timed = true) ∧ s.m.ts[t]? = some p ∧ WinMutex.Inside timed p) →
      delegate s t .inside l' = some (s', es) → ((∀ e ∈ es, e.thread ≠ t) ∧ Within s' t k) ∨ ∃ e, es = [e] ∧ MayReturn t e k := by
    intro l' hlt' ht ⟨timed, p, hk, hp, hi⟩ hs
    have hlt : t < s.ts.length := by grind
    simp only [delegate] at hs
    split at hs <;> cases hs
    · rename_i m hm
      rcases WinMutex.inside_step hp hi hm with ⟨-, q, hq, hqi⟩ | ⟨⟨e, he, -⟩, -⟩
      · exact .inl ⟨by simp, .inr (.inr ⟨List.getElem?_set_self hlt, timed, q, hk, hq, hqi⟩)⟩
      · cases he
    · rename_i m e hm
      rcases WinMutex.inside_step hp hi hm with ⟨h0, q, hq, hqi⟩ | ⟨⟨e', he, hm'⟩, -⟩
      · refine absurd ?_ (h0 e (by simp))
        rw [← hlt', ← (inner_event hm).1]
        cases e <;> rfl
      · cases he
        exact .inr ⟨_, rfl, convert_may hk hm'⟩
  cases l with
  | call u k' | unlock u =>
    simp only [Label.thread] at hl; subst hl
    rcases hw with h | h | ⟨h, -⟩ <;> simp [step, h] at hs
  | giveUp u =>
    simp only [Label.thread] at hl; subst hl
    rcases hw with h | h | ⟨h, h'⟩ <;> simp only [step, h] at hs
    · cases hs
    · cases hs
    · exact inner_case _ rfl h h' hs
  | next u =>
    simp only [Label.thread] at hl; subst hl
    rcases hw with h | h | ⟨h, h'⟩ <;> simp only [step, h] at hs
    · simp only [Option.some.injEq, Prod.mk.injEq] at hs
      exact .inr ⟨_, hs.2.symm, by cases k <;> simp [MayReturn, acquired]⟩
    · have hlt : u < s.ts.length := by grind
      simp only [delegate] at hs
      cases k with
      | tryLock =>
        simp only [inner, WinMutex.step] at hs
        split at hs <;> cases hs <;> rename_i hm <;> (repeat' split at hm) <;> cases hm <;> exact .inr ⟨_, rfl, by simp [MayReturn, convert]⟩
      | lock =>
        simp only [inner] at hs
        split at hs <;> cases hs <;> rename_i hm <;> rcases WinMutex.call_step hm with ⟨he, q, hq, hi⟩ | ⟨e', he, hm'⟩ <;> cases he
        · exact .inl ⟨by simp, .inr (.inr ⟨List.getElem?_set_self hlt, false, q, .inl ⟨rfl, rfl⟩, hq, hi⟩)⟩
        · exact .inr ⟨_, rfl, convert_may (.inl ⟨rfl, rfl⟩) hm'⟩
      | timed =>
        simp only [inner] at hs
        split at hs <;> cases hs <;> rename_i hm <;> rcases WinMutex.call_step hm with ⟨he, q, hq, hi⟩ | ⟨e', he, hm'⟩ <;> cases he
        · exact .inl ⟨by simp, .inr (.inr ⟨List.getElem?_set_self hlt, true, q, .inr ⟨rfl, rfl⟩, hq, hi⟩)⟩
        · exact .inr ⟨_, rfl, convert_may (.inr ⟨rfl, rfl⟩) hm'⟩
    · exact inner_case _ rfl h h' hs

theorem within_run {t : Nat} {k : Kind} : ∀ {ls : List Label} {s s' : State} {es : List Event}, Within s t k → run step s ls = some (s', es) →
    ∀ e rest, es.filter (·.thread == t) = e :: rest → MayReturn t e k := by
  intro ls
  induction ls with
  | nil => intro s s' es _ h e rest he; cases h; cases he
  | cons l ls ih =>
    intro s s' es hw h e rest he
    simp only [run] at h
    split at h
    · cases h
    split at h <;> cases h
    rename_i s1 es1 hs1 _ es2 hs2
    rw [List.filter_append] at he
    rcases within_step hw hs1 with ⟨h0, hq⟩ | ⟨e', rfl, hm⟩
    · rw [List.filter_eq_nil_iff.mpr (by simpa using h0)] at he
      exact ih hq hs2 e rest he
    · simp [hm.thread] at he
      exact he.1 ▸ hm

/-- **C06, what a call may return.** From any state, whatever the other threads do, the first thing a thread reports after it has called `lock()` is that it has the mutex: `lock()` never gives up;
`try_lock` and the timed calls return true or false. -/
theorem call_returns (s s' : State) (ls : List Label) (es : List Event) (t : Nat) (k : Kind) (h : run step s (.call t k :: ls) = some (s', es)) :
    ∀ e rest, es.filter (·.thread == t) = e :: rest → MayReturn t e k := by
  intro e rest he
  simp only [run] at h
  split at h
  · cases h
  split at h <;> cases h
  rename_i s1 es1 hs1 _ es2 hs2
  have : es1 = [] ∧ Within s1 t k := by
    simp only [step] at hs1
    (repeat' split at hs1) <;> cases hs1
    · exact ⟨rfl, .inl (List.getElem?_set_self (by grind))⟩
    · exact ⟨rfl, .inr (.inl (List.getElem?_set_self (by grind)))⟩
  obtain ⟨rfl, hw⟩ := this
  exact within_run hw hs2 e rest he

example : (run step (init 2) (.call 0 .lock :: demo.tail)).map (fun r => (r.2.filter (·.thread == 0)).head?) = some (some (.ret (.locked 0))) := by decide
/-- Thread 1 waits in a timed call and gives up. -/
example : ∃ s es, run step (init 2) [.call 0 .lock, .next 0, .next 0, .next 0, .call 1 .timed, .next 1, .next 1, .next 1, .giveUp 1] = some (s, es) ∧
    es.filter (·.thread == 1) = [.ret (.timedLocked 1 false)] := ⟨_, _, rfl, by decide⟩

end Verif.WinRecursiveMutex
