import Verif.OnceEpoch.Model
import Verif.Once.SpecLemmas
/-! # Simulation and epoch bookkeeping of the epoch variant of `call_once` -/

set_option linter.unusedSimpArgs false

namespace Verif.OnceEpoch
open Verif.Once (Event Flag specNext completions)

def PC.isEnded (k : Nat) : PC → Bool
  | .ended j _ => decide (j = k)
  | _ => false

def PC.isThrowing (k : Nat) : PC → Bool
  | .ended j false => decide (j = k)
  | _ => false

/-- Finished normally, epoch not yet taken. -/
def Thread.pends (x : Thread) : Bool :=
  match x.pc with
  | .ended _ true => true
  | _ => false

def pend (s : State) : Nat := cnt Thread.pends s.ts

/-- Thread `t` in state `x`, flag `k` with value `v`, specification state `q`, `h` the thread running or just ended. -/
structure Ok (k v : Nat) (q : Flag) (h : Option Nat) (t : Nat) (x : Thread) : Prop where
  act : x.stack.count k + b2n (x.pc.isEnded k) = b2n (decide (h = some t))
  run : q.running = some t ↔ k ∈ x.stack
  thr : t ∈ q.throwing ↔ x.pc.isThrowing k = true
  done : ∀ b, x.pc = .ended k b → q.done = b
  wake : x.pc = .asleep k → v = 1
  epoch : 2 ≤ x.epoch

structure R' (k : Nat) (h : Option Nat) (s : State) (q : Flag) : Prop where
  busy : s.flag k = 1 ↔ h ≠ none
  ini : 2 ≤ s.flag k → q.done = true
  uni : s.flag k = 0 → q.done = false
  run : ∀ t, q.running = some t → h = some t ∧ q.done = false
  nd : q.throwing.Nodup
  holder : ∀ t, h = some t → ∃ x, s.ts[t]? = some x
  all : ∀ t x, s.ts[t]? = some x → Ok k (s.flag k) q h t x

def R (k : Nat) (s : State) (q : Flag) : Prop := ∃ h, R' k h s q

theorem R_init (k n : Nat) : R k (init n) Flag.fresh := by
  refine ⟨none, by simp [init], by simp [init], by simp [init, Flag.fresh], by simp [Flag.fresh], by simp [Flag.fresh], by simp, ?_⟩
  intro t x hx
  simp only [init] at hx
  have := List.eq_of_mem_replicate (List.mem_of_getElem? hx)
  subst this
  refine ⟨?_, ?_, ?_, ?_, ?_, ?_⟩ <;> simp [PC.isEnded, Flag.fresh, PC.isThrowing, init, maxEpoch]

theorem Ok.wake' {k v v' : Nat} {q : Flag} {h : Option Nat} {t : Nat} {x : Thread} (o : Ok k v q h t x) :
    Ok k v' q h t x.wake := by
  obtain ⟨pc, st, e⟩ := x
  obtain ⟨o1, o2, o3, o4, o5, o6⟩ := o
  refine ⟨?_, o2, ?_, ?_, ?_, o6⟩ <;> cases pc <;> simp_all [PC.wake, PC.isEnded, PC.isThrowing, Thread.wake]

/-- What one step guarantees (no history of `call_once` is the client's fault). -/
def Good (k : Nat) (q : Flag) (s' : State) (es : List Event) : Prop :=
  ∃ q', specState (specNext k) q es = some q' ∧ R k s' q'

theorem good_nil {k : Nat} {q : Flag} {s' : State} (h : R k s' q) : Good k q s' [] := ⟨q, rfl, h⟩
theorem good_one {k : Nat} {q q' : Flag} {s' : State} {e : Event} (h : specNext k q e = .ok q') (hr : R k s' q') : Good k q s' [e] :=
  ⟨q', by simp [specState, h], hr⟩

theorem loop_good {k : Nat} {s s' : State} {q : Flag} {h : Option Nat} {t j : Nat} {x : Thread}
    {es : List Event} (hR : R' k h s q) (ht : s.ts[t]? = some x) (hpc : x.pc = .missed j ∨ x.pc = .woken j)
    (hg : 2 ≤ s.glob) (hs : loop s t j x = (s', es)) : Good k q s' es := by
  obtain ⟨r1, r2, r3, r4, r5, r5', r7⟩ := hR
  obtain ⟨o1, o2, o3, o4, o5, o6⟩ := r7 t _ ht
  obtain ⟨pc, stack, ep⟩ := x
  simp only at hpc o1 o2 o3 o4 o5 o6
  have e1 : pc.isEnded k = false := by rcases hpc with rfl | rfl <;> rfl
  have e2 : pc.isThrowing k = false := by rcases hpc with rfl | rfl <;> rfl
  have hhold : ∀ z : Thread, ∀ u, h = some u → ∃ x, (s.ts.set t z)[u]? = some x := by
    intro z u hu; obtain ⟨x, hx⟩ := r5' u hu; simp only [getElem?_set_eq ht]; split <;> simp_all
  simp only [e1, e2, b2n_false, Nat.add_zero, Bool.false_eq_true, iff_false] at o1 o3
  simp only [loop] at hs
  split at hs
  · next hv =>
    simp only [Prod.mk.injEq] at hs; obtain ⟨rfl, rfl⟩ := hs
    by_cases hj : j = k
    · subst hj
      have hh : h = none := by
        cases h with
        | none => rfl
        | some u => have := r1.mpr (by simp); omega
      subst hh
      have hrun : q.running = none := by
        cases hq : q.running with
        | none => rfl
        | some u => have := (r4 u hq).1; cases this
      refine good_one (q' := { q with running := some t }) (by simp [specNext, hrun, r3 hv]) ⟨some t, ?_, ?_, ?_, ?_, r5, ?_, ?_⟩
      · simp [State.setFlag]
      · simp [State.setFlag]
      · simp [State.setFlag]
      · intro u hu; simp only [Option.some.injEq] at hu; subst hu; exact ⟨rfl, r3 hv⟩
      · intro u hu; simp only [Option.some.injEq] at hu; subst hu; simp [getElem?_set_eq ht]
      · intro u x hx
        simp only [getElem?_set_eq ht] at hx
        split at hx
        · next hu =>
          cases hx; subst hu
          refine ⟨?_, by simp, ?_, by simp, by simp, o6⟩
          · simp [PC.isEnded, o1]
          · simp [PC.isThrowing, o3]
        · next hu =>
          obtain ⟨p1, p2, p3, p4, p5, p6⟩ := r7 u x hx
          refine ⟨?_, ?_, p3, p4, ?_, p6⟩
          · rw [p1]; simp [hu]
          · rw [← p2]; simp [hrun, hu]
          · simp [State.setFlag]
    · refine good_one (q' := q) (by simp [specNext, hj]) ⟨h, ?_, ?_, ?_, r4, r5, hhold _, ?_⟩
      · simpa [State.setFlag, Ne.symm hj] using r1
      · simpa [State.setFlag, Ne.symm hj] using r2
      · simpa [State.setFlag, Ne.symm hj] using r3
      · intro u x hx
        simp only [State.setFlag, Ne.symm hj, if_false]
        simp only [getElem?_set_eq ht] at hx
        split at hx
        · next hu =>
          cases hx; subst hu
          refine ⟨?_, ?_, ?_, by simp, by simp, o6⟩
          · simp [PC.isEnded, o1, hj]
          · simp [o2, Ne.symm hj]
          · simp [PC.isThrowing, o3]
        · exact r7 u x hx
  · split at hs <;> (simp only [Prod.mk.injEq] at hs; obtain ⟨rfl, rfl⟩ := hs)
    · next hv =>
      refine good_nil ⟨h, r1, r2, r3, r4, r5, hhold _, ?_⟩
      intro u x hx
      simp only [getElem?_set_eq ht] at hx
      split at hx
      · next hu =>
        cases hx; subst hu
        exact ⟨by simp [PC.isEnded, o1], o2, by simp [PC.isThrowing, o3], by simp, by simp; rintro rfl; exact hv, o6⟩
      · exact r7 u x hx
    · next hv0 hv =>
      refine good_one (q' := q) ?_ ⟨h, r1, r2, r3, r4, r5, hhold _, ?_⟩
      · simp only [specNext]
        split
        · rfl
        · next hj => simp at hj; subst hj; simp [r2 (by omega), o3]
      · intro u x hx
        simp only [getElem?_set_eq ht] at hx
        split at hx
        · next hu =>
          cases hx; subst hu
          exact ⟨by simp [PC.isEnded, o1], o2, by simp [PC.isThrowing, o3], by simp, by simp, hg⟩
        · exact r7 u x hx

theorem step_good (k : Nat) {s s' : State} {l : Label} {es : List Event} {q : Flag} (hR : R k s q)
    (hg : 2 + pend s ≤ s.glob) (hs : step s l = some (s', es)) : Good k q s' es := by
  obtain ⟨h, hR⟩ := hR
  cases l with
  | enter t =>
    simp only [step] at hs
    split at hs
    · next x ht =>
      split at hs
      · next hp => exact loop_good hR ht (Or.inl hp) (by omega) (Option.some.inj hs)
      · next hp => exact loop_good hR ht (Or.inr hp) (by omega) (Option.some.inj hs)
      · cases hs
    · cases hs
  | call t j =>
    simp only [step] at hs
    split at hs
    · next x ht =>
      obtain ⟨r1, r2, r3, r4, r5, r5', r7⟩ := hR
      obtain ⟨o1, o2, o3, o4, o5, o6⟩ := r7 t _ ht
      obtain ⟨pc, st, ep⟩ := x
      simp only at hs o1 o2 o3 o4 o5 o6
      split at hs
      · next hp =>
        subst hp
        split at hs <;> cases hs
        · refine good_nil ⟨h, r1, r2, r3, r4, r5, ?_, ?_⟩
          · intro u hu; obtain ⟨x, hx⟩ := r5' u hu; simp only [getElem?_set_eq ht]; split <;> simp_all
          · intro u x hx
            simp only [getElem?_set_eq ht] at hx
            split at hx
            · next hu =>
              cases hx; subst hu
              exact ⟨by simpa [PC.isEnded] using o1, o2, by simpa [PC.isThrowing] using o3, by simp, by simp, o6⟩
            · exact r7 u x hx
        · next hv =>
          refine good_one (q' := q) ?_ ⟨h, r1, r2, r3, r4, r5, r5', r7⟩
          simp only [specNext]
          split
          · rfl
          · next hj => simp at hj; subst hj; simp [r2 (by omega), o3, PC.isThrowing]
      · cases hs
    · cases hs
  | spurious t =>
    simp only [step] at hs
    split at hs
    · next x ht =>
      obtain ⟨r1, r2, r3, r4, r5, r5', r7⟩ := hR
      obtain ⟨o1, o2, o3, o4, o5, o6⟩ := r7 t _ ht
      obtain ⟨pc, st, ep⟩ := x
      simp only at hs o1 o2 o3 o4 o5 o6
      split at hs
      · next j =>
        cases hs
        refine good_nil ⟨h, r1, r2, r3, r4, r5, ?_, ?_⟩
        · intro u hu; obtain ⟨x, hx⟩ := r5' u hu; simp only [getElem?_set_eq ht]; split <;> simp_all
        · intro u x hx
          simp only [getElem?_set_eq ht] at hx
          split at hx
          · next hu =>
            cases hx; subst hu
            exact ⟨by simpa [PC.isEnded] using o1, o2, by simpa [PC.isThrowing] using o3, by simp, by simp, o6⟩
          · exact r7 u x hx
      · cases hs
    · cases hs
  | finish t ok =>
    simp only [step] at hs
    split at hs
    · next x ht =>
      obtain ⟨r1, r2, r3, r4, r5, r5', r7⟩ := hR
      obtain ⟨o1, o2, o3, o4, o5, o6⟩ := r7 t _ ht
      obtain ⟨pc, st0, ep⟩ := x
      simp only at hs o1 o2 o3 o4 o5 o6
      split at hs
      · next j st =>
        cases hs
        simp only [PC.isEnded, PC.isThrowing, b2n_false, Nat.add_zero, Bool.false_eq_true, iff_false] at o1 o3
        have hhold : ∀ u, h = some u → ∃ x, (s.ts.set t ⟨.ended j ok, st, ep⟩)[u]? = some x := by
          intro u hu; obtain ⟨x, hx⟩ := r5' u hu; simp only [getElem?_set_eq ht]; split <;> simp_all
        by_cases hj : j = k
        · subst hj
          have hrun : q.running = some t := o2.mpr (by simp)
          obtain ⟨hh, hnd⟩ := r4 t hrun
          subst hh
          simp only [List.count_cons_self, decide_true, b2n_true] at o1
          have hst : j ∉ st := by rw [← List.count_eq_zero]; omega
          have hbusy := r1.mpr (by simp)
          cases ok with
          | true =>
            refine good_one (q' := { q with running := none, done := true }) (by simp [specNext, hrun])
              ⟨some t, r1, fun _ => rfl, ?_, by simp, r5, hhold, ?_⟩
            · intro hv; simp only at hv; rw [hbusy] at hv; cases hv
            · intro u x hx
              simp only [getElem?_set_eq ht] at hx
              split at hx
              · next hu =>
                cases hx; subst hu
                exact ⟨by simp [PC.isEnded]; omega, by simp [hst], by simp [PC.isThrowing, o3], by simp, by simp, o6⟩
              · next hu =>
                obtain ⟨p1, p2, p3, p4, p5, p6⟩ := r7 u x hx
                refine ⟨p1, ?_, p3, ?_, p5, p6⟩
                · rw [← p2, hrun]; simp [hu]
                · intro b hb; simp [hb, PC.isEnded, hu] at p1
          | false =>
            refine good_one (q' := { q with running := none, throwing := t :: q.throwing }) (by simp [specNext, hrun])
              ⟨some t, r1, ?_, fun _ => hnd, by simp, List.nodup_cons.mpr ⟨o3, r5⟩, hhold, ?_⟩
            · intro hv; simp only at hv; omega
            · intro u x hx
              simp only [getElem?_set_eq ht] at hx
              split at hx
              · next hu =>
                cases hx; subst hu
                exact ⟨by simp [PC.isEnded]; omega, by simp [hst], by simp [PC.isThrowing], by simp [hnd], by simp, o6⟩
              · next hu =>
                obtain ⟨p1, p2, p3, p4, p5, p6⟩ := r7 u x hx
                refine ⟨p1, ?_, ?_, p4, p5, p6⟩
                · rw [← p2, hrun]; simp [hu]
                · rw [← p3]; simp [Ne.symm hu]
        · refine good_one (q' := q) (by simp [specNext, hj]) ⟨h, r1, r2, r3, r4, r5, hhold, ?_⟩
          intro u x hx
          simp only [getElem?_set_eq ht] at hx
          split at hx
          · next hu =>
            cases hx; subst hu
            refine ⟨?_, ?_, ?_, ?_, by simp, o6⟩
            · simpa [PC.isEnded, hj, Ne.symm hj] using o1
            · rw [o2]; simp [Ne.symm hj]
            · cases ok <;> simp [PC.isThrowing, hj, o3]
            · simp [hj]
          · exact r7 u x hx
      · cases hs
    · cases hs
  | store t =>
    simp only [step] at hs
    split at hs
    · next x ht =>
      have hR0 := hR
      obtain ⟨r1, r2, r3, r4, r5, r5', r7⟩ := hR
      obtain ⟨o1, o2, o3, o4, o5, o6⟩ := r7 t _ ht
      have hp0 := fun hx => cnt_pos (f := Thread.pends) ht hx
      obtain ⟨pc, st, ep⟩ := x
      simp only at hs o1 o2 o3 o4 o5 o6
      -- facts about a thread of flag `k`
      have key : ∀ ok, pc = .ended k ok → h = some t ∧ k ∉ st ∧ q.running = none ∧ q.done = ok ∧ s.flag k = 1 := by
        rintro ok rfl
        simp only [PC.isEnded, decide_true, b2n_true] at o1
        have hst : k ∉ st := by
          rw [← List.count_eq_zero]; have := b2n_le (decide (h = some t)); omega
        have hh : h = some t := Classical.byContradiction fun hb => by simp [hb] at o1
        refine ⟨hh, hst, ?_, o4 ok rfl, r1.mpr (by simp [hh])⟩
        cases hq : q.running with
        | none => rfl
        | some u => have := (r4 u hq).1; rw [hh] at this; cases this; exact absurd (o2.mp hq) hst
      split at hs
      · next j =>
        have hpos := hp0 rfl
        have hglob : dec s.glob = s.glob - 1 := by simp only [dec]; rw [if_neg (by omega)]
        have hge : 2 ≤ s.glob - 1 := by simp only [pend] at hg; omega
        have hl : s' = (⟨dec s.glob, s.setFlag j (dec s.glob), (s.ts.map Thread.wake).set t ⟨.user, st, dec s.glob⟩⟩ : State) ∧ es = [.returned t j] := by
          have := Option.some.inj hs
          simp only [loop, State.setFlag, if_true, hglob] at this
          rw [if_neg (by omega), if_neg (by omega)] at this
          simp only [Prod.mk.injEq] at this
          exact ⟨by rw [← this.1]; simp [State.setFlag, hglob], this.2.symm⟩
        obtain ⟨rfl, rfl⟩ := hl
        have hm : (s.ts.map Thread.wake)[t]? = some (Thread.wake ⟨.ended j true, st, ep⟩) := by simp [ht]
        by_cases hj : j = k
        · subst hj
          obtain ⟨rfl, hst, hrun, hdone, hv⟩ := key true rfl
          have hthr : t ∉ q.throwing := by rw [o3]; simp [PC.isThrowing]
          refine good_one (q' := q) (by simp [specNext, hdone, hthr]) ⟨none, ?_, ?_, ?_, by simp [hrun], r5, by simp, ?_⟩
          · simp [State.setFlag]; omega
          · intro _; exact hdone
          · simp [State.setFlag]; omega
          · intro u x hx
            simp only [getElem?_set_eq hm] at hx
            split at hx
            · next hu =>
              cases hx; subst hu
              exact ⟨by simp [PC.isEnded, List.count_eq_zero, hst], by simp [hrun, hst], by simp [PC.isThrowing, hthr], by simp,
                by simp, by simp only; omega⟩
            · next hu =>
              simp only [List.getElem?_map, Option.map_eq_some_iff] at hx
              obtain ⟨y, hy, rfl⟩ := hx
              obtain ⟨p1, p2, p3, p4, p5, p6⟩ := (r7 u y hy).wake' (v' := (if j = j then dec s.glob else s.flag j))
              exact ⟨by rw [p1]; simp [hu], p2, p3, p4, p5, p6⟩
        · refine good_one (q' := q) (by simp [specNext, hj]) ⟨h, ?_, ?_, ?_, r4, r5, ?_, ?_⟩
          · simpa [State.setFlag, Ne.symm hj] using r1
          · simpa [State.setFlag, Ne.symm hj] using r2
          · simpa [State.setFlag, Ne.symm hj] using r3
          · intro u hu; obtain ⟨x, hx⟩ := r5' u hu; simp only [getElem?_set_eq hm]; split
            · exact ⟨_, rfl⟩
            · simp [hx]
          · intro u x hx
            simp only [State.setFlag, Ne.symm hj, if_false]
            simp only [getElem?_set_eq hm] at hx
            split at hx
            · next hu =>
              cases hx; subst hu
              refine ⟨?_, o2, ?_, by simp, by simp, by simp only; omega⟩
              · simpa [PC.isEnded, hj] using o1
              · rw [o3]; simp [PC.isThrowing]
            · simp only [List.getElem?_map, Option.map_eq_some_iff] at hx
              obtain ⟨y, hy, rfl⟩ := hx
              exact (r7 u y hy).wake'
      · next j =>
        cases hs
        have hm : (s.ts.map Thread.wake)[t]? = some (Thread.wake ⟨.ended j false, st, ep⟩) := by simp [ht]
        by_cases hj : j = k
        · subst hj
          obtain ⟨rfl, hst, hrun, hdone, hv⟩ := key false rfl
          have hthr : t ∈ q.throwing := o3.mpr (by simp [PC.isThrowing])
          refine good_one (q' := { q with throwing := q.throwing.erase t }) (by simp [specNext, hthr])
            ⟨none, ?_, ?_, ?_, by simp [hrun], r5.erase t, by simp, ?_⟩
          · simp [State.setFlag]
          · simp [State.setFlag]
          · intro _; exact hdone
          · intro u x hx
            simp only [getElem?_set_eq hm] at hx
            split at hx
            · next hu =>
              cases hx; subst hu
              exact ⟨by simp [PC.isEnded, List.count_eq_zero, hst], by simp [hrun, hst],
                by simp [PC.isThrowing, List.Nodup.not_mem_erase r5], by simp, by simp, o6⟩
            · next hu =>
              simp only [List.getElem?_map, Option.map_eq_some_iff] at hx
              obtain ⟨y, hy, rfl⟩ := hx
              obtain ⟨p1, p2, p3, p4, p5, p6⟩ := (r7 u y hy).wake' (v' := s.setFlag j 0 j)
              exact ⟨by rw [p1]; simp [hu], p2, by rw [List.mem_erase_of_ne (Ne.symm hu)]; exact p3, p4, p5, p6⟩
        · refine good_one (q' := q) (by simp [specNext, hj]) ⟨h, ?_, ?_, ?_, r4, r5, ?_, ?_⟩
          · simpa [State.setFlag, Ne.symm hj] using r1
          · simpa [State.setFlag, Ne.symm hj] using r2
          · simpa [State.setFlag, Ne.symm hj] using r3
          · intro u hu; obtain ⟨x, hx⟩ := r5' u hu; simp only [getElem?_set_eq hm]; split
            · exact ⟨_, rfl⟩
            · simp [hx]
          · intro u x hx
            simp only [State.setFlag, Ne.symm hj, if_false]
            simp only [getElem?_set_eq hm] at hx
            split at hx
            · next hu =>
              cases hx; subst hu
              refine ⟨?_, o2, ?_, by simp, by simp, o6⟩
              · simpa [PC.isEnded, hj] using o1
              · rw [o3]; simp [PC.isThrowing, hj]
            · simp only [List.getElem?_map, Option.map_eq_some_iff] at hx
              obtain ⟨y, hy, rfl⟩ := hx
              exact (r7 u y hy).wake'
      · cases hs
    · cases hs

/-! ## The epoch counter -/

theorem completions_append (a b : List Event) : completions (a ++ b) = completions a + completions b := by
  simp [completions, List.countP_append]

theorem pends_wake (x : Thread) : x.wake.pends = x.pends := by
  obtain ⟨pc, st, e⟩ := x
  cases pc <;> rfl

theorem loop_room {s s' : State} {t j : Nat} {x : Thread} {es : List Event} (ht : s.ts[t]? = some x)
    (hs : loop s t j x = (s', es)) : s'.glob = s.glob ∧ pend s' + b2n x.pends = pend s ∧ completions es = 0 := by
  have c := fun z => cnt_set Thread.pends z ht
  simp only [loop] at hs
  split at hs
  · simp only [Prod.mk.injEq] at hs; obtain ⟨rfl, rfl⟩ := hs
    have := c { x with pc := .user, stack := j :: x.stack }
    exact ⟨rfl, by simp only [pend]; rw [this]; rfl, rfl⟩
  · split at hs
    · simp only [Prod.mk.injEq] at hs; obtain ⟨rfl, rfl⟩ := hs
      have := c { x with pc := .asleep j }
      exact ⟨rfl, by simp only [pend]; rw [this]; rfl, rfl⟩
    · simp only [Prod.mk.injEq] at hs; obtain ⟨rfl, rfl⟩ := hs
      have := c { x with pc := .user, epoch := s.glob }
      exact ⟨rfl, by simp only [pend]; rw [this]; rfl, rfl⟩

/-- The counter has gone down once for every completed function, except those that have not reached line 160 yet. -/
theorem step_room {s s' : State} {l : Label} {es : List Event} (hg : 2 + pend s ≤ s.glob) (hs : step s l = some (s', es)) :
    s'.glob + pend s + completions es = s.glob + pend s' := by
  cases l with
  | enter t =>
    simp only [step] at hs
    split at hs
    · next x ht =>
      split at hs
      · next hp =>
        obtain ⟨a, b, c⟩ := loop_room ht (Option.some.inj hs)
        have : x.pends = false := by simp [Thread.pends, hp]
        simp [this] at b; omega
      · next hp =>
        obtain ⟨a, b, c⟩ := loop_room ht (Option.some.inj hs)
        have : x.pends = false := by simp [Thread.pends, hp]
        simp [this] at b; omega
      · cases hs
    · cases hs
  | call t j =>
    simp only [step] at hs
    split at hs
    · next x ht =>
      split at hs
      · next hp =>
        split at hs <;> cases hs
        · have := cnt_set Thread.pends { x with pc := PC.missed j } ht
          simp [Thread.pends, hp] at this
          simp only [pend, this, completions, List.countP_nil]; omega
        · simp [completions]
      · cases hs
    · cases hs
  | spurious t =>
    simp only [step] at hs
    split at hs
    · next x ht =>
      split at hs
      · next j hp =>
        cases hs
        have := cnt_set Thread.pends { x with pc := PC.woken j } ht
        simp [Thread.pends, hp] at this
        simp only [pend, this, completions, List.countP_nil]; omega
      · cases hs
    · cases hs
  | finish t ok =>
    simp only [step] at hs
    split at hs
    · next x ht =>
      split at hs
      · next j st hp _ =>
        cases hs
        have := cnt_set Thread.pends { x with pc := PC.ended j ok, stack := st } ht
        cases ok <;> simp [Thread.pends, hp] at this <;> simp [pend, this, completions] <;> omega
      · cases hs
    · cases hs
  | store t =>
    simp only [step] at hs
    split at hs
    · next x ht =>
      split at hs
      · next j hp =>
        have hm : (s.ts.map Thread.wake)[t]? = some x := by
          obtain ⟨pc, st, ep⟩ := x; simp only at hp; subst hp; simp [ht, Thread.wake, PC.wake]
        obtain ⟨a, b, c⟩ := loop_room (s := { glob := dec s.glob, flag := s.setFlag j (dec s.glob), ts := s.ts.map Thread.wake })
          hm (Option.some.inj hs)
        have hx : x.pends = true := by simp [Thread.pends, hp]
        simp only [hx, b2n_true, pend, cnt_map] at b
        rw [cnt_congr s.ts pends_wake] at b
        have hpos := cnt_pos (f := Thread.pends) ht hx
        have hglob : dec s.glob = s.glob - 1 := by simp only [dec]; rw [if_neg (by omega)]
        simp only [pend] at *
        simp only [hglob] at a
        omega
      · next j hp =>
        have hm : (s.ts.map Thread.wake)[t]? = some x := by
          obtain ⟨pc, st, ep⟩ := x; simp only at hp; subst hp; simp [ht, Thread.wake, PC.wake]
        cases hs
        have := cnt_set Thread.pends { x with pc := PC.user } hm
        have hx : x.pends = false := by simp [Thread.pends, hp]
        rw [cnt_map, cnt_congr s.ts pends_wake, hx] at this
        have e : Thread.pends { x with pc := PC.user } = false := rfl
        rw [e] at this
        simp only [pend, completions]
        simp at this ⊢
        omega
      · cases hs
    · cases hs

/-- Everything known about a run, as long as the counter lasts. -/
def Inv (k : Nat) (s : State) (h : List Event) : Prop :=
  completions h ≤ maxEpoch - 2 →
    s.glob + completions h = maxEpoch + pend s ∧ ∃ q, specState (specNext k) Flag.fresh h = some q ∧ R k s q

theorem inv_step (k : Nat) (s : State) (l : Label) (s' : State) (h es : List Event) (hi : Inv k s h)
    (hs : step s l = some (s', es)) : Inv k s' (h ++ es) := by
  intro hb
  rw [completions_append] at hb
  obtain ⟨h1, q, h2, h3⟩ := hi (by omega)
  have hg : 2 + pend s ≤ s.glob := by
    have : maxEpoch = 4294967295 := rfl
    omega
  have hr := step_room hg hs
  obtain ⟨q', h4, h5⟩ := step_good k h3 hg hs
  refine ⟨by rw [completions_append]; omega, q', ?_, h5⟩
  rw [specState_append, h2]; exact h4

theorem inv_init (k n : Nat) : Inv k (init n) [] := by
  intro _
  refine ⟨?_, Flag.fresh, rfl, R_init k n⟩
  simp [init, completions, pend, cnt_replicate, Thread.pends]

theorem accepts_of_specState {σ E : Type} {next : σ → E → Verdict σ} {q q' : σ} {es : List E}
    (h : specState next q es = some q') : Accepts next q es := by
  induction es generalizing q with
  | nil => trivial
  | cons e es ih =>
    simp only [specState, Accepts] at *
    cases hn : next q e <;> simp only [hn] at h
    · exact ih h
    · cases h
    · cases h

end Verif.OnceEpoch
