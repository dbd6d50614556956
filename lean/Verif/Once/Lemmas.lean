import Verif.Once.Model
/-! # Simulation and wake-up invariant of the atomic `call_once` -/

set_option linter.unusedSimpArgs false

namespace Verif.Once

def PC.isEnded (k : Nat) : PC → Bool
  | .ended j _ => decide (j = k)
  | _ => false

def PC.isThrowing (k : Nat) : PC → Bool
  | .ended j false => decide (j = k)
  | .broadcasting j false => decide (j = k)
  | _ => false

def Thread.isAsleep (k : Nat) : Thread → Bool
  | ⟨.asleep j, _⟩ => decide (j = k)
  | _ => false

def Thread.isBroadcasting (k : Nat) : Thread → Bool
  | ⟨.broadcasting j _, _⟩ => decide (j = k)
  | _ => false

/-- Thread `t` in state `x`, flag `k` with value `v`, specification state `q`, `h` the thread that set the flag to `in_progress`. -/
structure Ok (k : Nat) (v : FlagState) (q : Flag) (h : Option Nat) (t : Nat) (x : Thread) : Prop where
  act : x.stack.count k + b2n (x.pc.isEnded k) = b2n (decide (h = some t))
  run : q.running = some t ↔ k ∈ x.stack
  thr : t ∈ q.throwing ↔ x.pc.isThrowing k = true
  done : ∀ b, x.pc = .ended k b → q.done = b
  bc : x.pc = .broadcasting k true → v = .initialized

structure R' (k : Nat) (h : Option Nat) (s : State) (q : Flag) : Prop where
  busy : s.flag k = .inProgress ↔ h ≠ none
  ini : s.flag k = .initialized → q.done = true
  uni : s.flag k = .uninitialized → q.done = false
  run : ∀ t, q.running = some t → h = some t ∧ q.done = false
  nd : q.throwing.Nodup
  holder : ∀ t, h = some t → ∃ x, s.ts[t]? = some x
  wake : 0 < cnt (Thread.isAsleep k) s.ts →
    s.flag k = .inProgress ∨ 0 < cnt (Thread.isBroadcasting k) s.ts
  all : ∀ t x, s.ts[t]? = some x → Ok k (s.flag k) q h t x

def R (k : Nat) (s : State) (q : Flag) : Prop := ∃ h, R' k h s q

theorem R_init (k n : Nat) : R k (init n) Flag.fresh := by
  refine ⟨none, by simp [init], by simp [init], by simp [init, Flag.fresh], by simp [Flag.fresh], by simp [Flag.fresh], by simp, ?_, ?_⟩
  · simp [init, cnt_replicate, Thread.isAsleep]
  · intro t x hx
    simp only [init] at hx
    have := List.eq_of_mem_replicate (List.mem_of_getElem? hx)
    subst this
    refine ⟨?_, ?_, ?_, ?_, ?_⟩ <;> simp [PC.isEnded, Flag.fresh, PC.isThrowing, init]

theorem Ok.wake {k : Nat} {v : FlagState} {q : Flag} {h : Option Nat} {t : Nat} {x : Thread} (o : Ok k v q h t x) :
    Ok k v q h t { x with pc := x.pc.wake } := by
  obtain ⟨pc, st⟩ := x
  obtain ⟨o1, o2, o3, o4, o5⟩ := o
  refine ⟨?_, o2, ?_, ?_, ?_⟩ <;> cases pc <;> simp_all [PC.wake, PC.isEnded, PC.isThrowing]

theorem follows_one {k : Nat} {P : Flag → Prop} {q q' : Flag} {e : Event} (h : specNext k q e = .ok q') (hp : P q') :
    Follows (specNext k) P q [e] := by
  simp [Follows, h, hp]

theorem loop_follows {k : Nat} {s s' : State} {q : Flag} {h : Option Nat} {t j : Nat} {stack : List Nat} {pc : PC}
    {es : List Event} (hR : R' k h s q) (ht : s.ts[t]? = some ⟨pc, stack⟩) (hpc : pc = .missed j ∨ pc = .woken j)
    (hs : loop s t j stack = (s', es)) : Follows (specNext k) (R k s') q es := by
  obtain ⟨r1, r2, r3, r4, r5, r5', r6, r7⟩ := hR
  obtain ⟨o1, o2, o3, o4, o5⟩ := r7 t _ ht
  have e1 : pc.isEnded k = false := by rcases hpc with rfl | rfl <;> rfl
  have e2 : pc.isThrowing k = false := by rcases hpc with rfl | rfl <;> rfl
  have e3 : Thread.isAsleep k ⟨pc, stack⟩ = false := by rcases hpc with rfl | rfl <;> rfl
  have e4 : Thread.isBroadcasting k ⟨pc, stack⟩ = false := by rcases hpc with rfl | rfl <;> rfl
  have cA := fun z => cnt_set (Thread.isAsleep k) z ht
  have cB := fun z => cnt_set (Thread.isBroadcasting k) z ht
  simp only [e1, e2, e3, e4, b2n_false, Nat.add_zero, Bool.false_eq_true, iff_false] at *
  simp only [loop] at hs
  split at hs <;> (simp only [Prod.mk.injEq] at hs; obtain ⟨rfl, rfl⟩ := hs)
  · next hv =>
    have cA' := cA ⟨.user, j :: stack⟩; have cB' := cB ⟨.user, j :: stack⟩
    simp [Thread.isAsleep, Thread.isBroadcasting] at cA' cB'
    by_cases hj : j = k
    · subst hj
      have hh : h = none := by
        cases h with
        | none => rfl
        | some u => have := r1.mpr (by simp); rw [hv] at this; cases this
      subst hh
      have hrun : q.running = none := by
        cases hq : q.running with
        | none => rfl
        | some u => have := (r4 u hq).1; cases this
      refine follows_one (q' := { q with running := some t }) (by simp [specNext, hrun, r3 hv]) ⟨some t, ?_, ?_, ?_, ?_, r5, ?_, ?_, ?_⟩
      · simp [State.setFlag]
      · simp [State.setFlag]
      · simp [State.setFlag]
      · intro u hu; simp only [Option.some.injEq] at hu; subst hu; exact ⟨rfl, r3 hv⟩
      · intro u hu; simp only [Option.some.injEq] at hu; subst hu; simp [getElem?_set_eq ht]
      · intro _; left; simp [State.setFlag]
      · intro u x hx
        simp only [getElem?_set_eq ht] at hx
        split at hx
        · next hu =>
          cases hx; subst hu
          refine ⟨?_, by simp, ?_, by simp, by simp⟩
          · simp [PC.isEnded, o1]
          · simp [PC.isThrowing, o3]
        · next hu =>
          obtain ⟨p1, p2, p3, p4, p5⟩ := r7 u x hx
          refine ⟨?_, ?_, p3, p4, ?_⟩
          · rw [p1]; simp [hu]
          · rw [← p2]; simp [hrun, hu]
          · intro hb; have := p5 hb; rw [hv] at this; cases this
    · refine follows_one (q' := q) (by simp [specNext, hj]) ⟨h, ?_, ?_, ?_, r4, r5, ?_, ?_, ?_⟩
      · simpa [State.setFlag, Ne.symm hj] using r1
      · simpa [State.setFlag, Ne.symm hj] using r2
      · simpa [State.setFlag, Ne.symm hj] using r3
      · intro u hu; obtain ⟨x, hx⟩ := r5' u hu; simp only [getElem?_set_eq ht]; split <;> simp_all
      · simp only [State.setFlag, Ne.symm hj, if_false]; rw [cA', cB']; exact r6
      · intro u x hx
        simp only [State.setFlag, Ne.symm hj, if_false]
        simp only [getElem?_set_eq ht] at hx
        split at hx
        · next hu =>
          cases hx; subst hu
          refine ⟨?_, ?_, ?_, by simp, by simp⟩
          · simp [PC.isEnded, o1, hj]
          · simp [o2, Ne.symm hj]
          · simp [PC.isThrowing, o3]
        · exact r7 u x hx
  · next hv =>
    have cA' := cA ⟨.user, stack⟩; have cB' := cB ⟨.user, stack⟩
    simp [Thread.isAsleep, Thread.isBroadcasting] at cA' cB'
    refine follows_one (q' := q) ?_ ⟨h, r1, r2, r3, r4, r5, ?_, ?_, ?_⟩
    · simp only [specNext]
      split
      · rfl
      · next hj => simp at hj; subst hj; simp [r2 hv, o3]
    · intro u hu; obtain ⟨x, hx⟩ := r5' u hu; simp only [getElem?_set_eq ht]; split <;> simp_all
    · rw [cA', cB']; exact r6
    · intro u x hx
      simp only [getElem?_set_eq ht] at hx
      split at hx
      · next hu =>
        cases hx; subst hu
        exact ⟨by simp [PC.isEnded, o1], o2, by simp [PC.isThrowing, o3], by simp, by simp⟩
      · exact r7 u x hx
  · next hv =>
    have cA' := cA ⟨.asleep j, stack⟩; have cB' := cB ⟨.asleep j, stack⟩
    simp [Thread.isAsleep, Thread.isBroadcasting] at cA' cB'
    refine ⟨h, r1, r2, r3, r4, r5, ?_, ?_, ?_⟩
    · intro u hu; obtain ⟨x, hx⟩ := r5' u hu; simp only [getElem?_set_eq ht]; split <;> simp_all
    · by_cases hj : j = k
      · subst hj; intro _; exact Or.inl hv
      · simp [hj] at cA'; rw [cA', cB']; exact r6
    · intro u x hx
      simp only [getElem?_set_eq ht] at hx
      split at hx
      · next hu =>
        cases hx; subst hu
        exact ⟨by simp [PC.isEnded, o1], o2, by simp [PC.isThrowing, o3], by simp, by simp⟩
      · exact r7 u x hx

theorem step_follows (k : Nat) {s s' : State} {l : Label} {es : List Event} {q : Flag} (hR : R k s q)
    (hs : step s l = some (s', es)) : Follows (specNext k) (R k s') q es := by
  obtain ⟨h, hR⟩ := hR
  cases l with
  | enter t =>
    simp only [step] at hs
    split at hs
    · next j st ht => exact loop_follows hR ht (Or.inl rfl) (Option.some.inj hs)
    · next j st ht => exact loop_follows hR ht (Or.inr rfl) (Option.some.inj hs)
    · cases hs
  | call t j =>
    simp only [step] at hs
    split at hs
    · next st ht =>
      obtain ⟨r1, r2, r3, r4, r5, r5', r6, r7⟩ := hR
      obtain ⟨o1, o2, o3, o4, o5⟩ := r7 t _ ht
      split at hs
      · next hv =>
        cases hs
        refine follows_one (q' := q) ?_ ⟨h, r1, r2, r3, r4, r5, r5', r6, r7⟩
        simp only [specNext]
        split
        · rfl
        · next hj => simp at hj; subst hj; simp [r2 hv, o3, PC.isThrowing]
      · cases hs
        have cA' := cnt_set (Thread.isAsleep k) ⟨.missed j, st⟩ ht
        have cB' := cnt_set (Thread.isBroadcasting k) ⟨.missed j, st⟩ ht
        simp [Thread.isAsleep, Thread.isBroadcasting] at cA' cB'
        refine ⟨h, r1, r2, r3, r4, r5, ?_, ?_, ?_⟩
        · intro u hu; obtain ⟨x, hx⟩ := r5' u hu; simp only [getElem?_set_eq ht]; split <;> simp_all
        · rw [cA', cB']; exact r6
        · intro u x hx
          simp only [getElem?_set_eq ht] at hx
          split at hx
          · next hu =>
            cases hx; subst hu
            exact ⟨by simpa [PC.isEnded] using o1, o2, by simpa [PC.isThrowing] using o3, by simp, by simp⟩
          · exact r7 u x hx
    · cases hs
  | spurious t =>
    simp only [step] at hs
    split at hs
    · next j st ht =>
      obtain ⟨r1, r2, r3, r4, r5, r5', r6, r7⟩ := hR
      obtain ⟨o1, o2, o3, o4, o5⟩ := r7 t _ ht
      cases hs
      have cA' := cnt_set (Thread.isAsleep k) ⟨.woken j, st⟩ ht
      have cB' := cnt_set (Thread.isBroadcasting k) ⟨.woken j, st⟩ ht
      simp [Thread.isAsleep, Thread.isBroadcasting] at cA' cB'
      refine ⟨h, r1, r2, r3, r4, r5, ?_, ?_, ?_⟩
      · intro u hu; obtain ⟨x, hx⟩ := r5' u hu; simp only [getElem?_set_eq ht]; split <;> simp_all
      · intro hc; rw [cB']; exact r6 (by simp only [] at hc ⊢; omega)
      · intro u x hx
        simp only [getElem?_set_eq ht] at hx
        split at hx
        · next hu =>
          cases hx; subst hu
          exact ⟨by simpa [PC.isEnded] using o1, o2, by simpa [PC.isThrowing] using o3, by simp, by simp⟩
        · exact r7 u x hx
    · cases hs
  | finish t ok =>
    simp only [step] at hs
    split at hs
    · next j st ht =>
      obtain ⟨r1, r2, r3, r4, r5, r5', r6, r7⟩ := hR
      obtain ⟨o1, o2, o3, o4, o5⟩ := r7 t _ ht
      cases hs
      have cA' := cnt_set (Thread.isAsleep k) ⟨.ended j ok, st⟩ ht
      have cB' := cnt_set (Thread.isBroadcasting k) ⟨.ended j ok, st⟩ ht
      simp [Thread.isAsleep, Thread.isBroadcasting] at cA' cB'
      simp only [PC.isEnded, PC.isThrowing, b2n_false, Nat.add_zero, Bool.false_eq_true, iff_false] at o1 o3
      have hhold : ∀ u, h = some u → ∃ x, (s.ts.set t ⟨.ended j ok, st⟩)[u]? = some x := by
        intro u hu; obtain ⟨x, hx⟩ := r5' u hu; simp only [getElem?_set_eq ht]; split <;> simp_all
      by_cases hj : j = k
      · subst hj
        have hrun : q.running = some t := o2.mpr (by simp)
        obtain ⟨hh, hnd⟩ := r4 t hrun
        subst hh
        simp only [List.count_cons_self, decide_true, b2n_true] at o1
        have hst : j ∉ st := by rw [← List.count_eq_zero]; omega
        have hbusy := r1.mpr (by simp)
        cases ok with
        | true =>
          refine follows_one (q' := { q with running := none, done := true }) (by simp [specNext, hrun])
            ⟨some t, r1, ?_, ?_, by simp, r5, hhold, ?_, ?_⟩
          · intro _; rfl
          · intro hv; simp only at hv; rw [hbusy] at hv; cases hv
          · intro _; exact Or.inl hbusy
          · intro u x hx
            simp only [getElem?_set_eq ht] at hx
            split at hx
            · next hu =>
              cases hx; subst hu
              exact ⟨by simp [PC.isEnded]; omega, by simp [hst], by simp [PC.isThrowing, o3], by simp, by simp⟩
            · next hu =>
              obtain ⟨p1, p2, p3, p4, p5⟩ := r7 u x hx
              refine ⟨p1, ?_, p3, ?_, p5⟩
              · rw [← p2, hrun]; simp [hu]
              · intro b hb
                simp [hb, PC.isEnded, hu] at p1
        | false =>
          refine follows_one (q' := { q with running := none, throwing := t :: q.throwing }) (by simp [specNext, hrun])
            ⟨some t, r1, ?_, ?_, by simp, ?_, hhold, ?_, ?_⟩
          · intro hv; simp only at hv; rw [hbusy] at hv; cases hv
          · intro _; exact hnd
          · exact List.nodup_cons.mpr ⟨o3, r5⟩
          · intro _; exact Or.inl hbusy
          · intro u x hx
            simp only [getElem?_set_eq ht] at hx
            split at hx
            · next hu =>
              cases hx; subst hu
              exact ⟨by simp [PC.isEnded]; omega, by simp [hst], by simp [PC.isThrowing], by simp [hnd], by simp⟩
            · next hu =>
              obtain ⟨p1, p2, p3, p4, p5⟩ := r7 u x hx
              refine ⟨p1, ?_, ?_, p4, p5⟩
              · rw [← p2, hrun]; simp [hu]
              · rw [← p3]; simp [Ne.symm hu]
      · refine follows_one (q' := q) (by simp [specNext, hj]) ⟨h, r1, r2, r3, r4, r5, hhold, ?_, ?_⟩
        · rw [cA', cB']; exact r6
        · intro u x hx
          simp only [getElem?_set_eq ht] at hx
          split at hx
          · next hu =>
            cases hx; subst hu
            refine ⟨?_, ?_, ?_, ?_, by simp⟩
            · simpa [PC.isEnded, hj, Ne.symm hj] using o1
            · rw [o2]; simp [Ne.symm hj]
            · cases ok <;> simp [PC.isThrowing, hj, o3]
            · simp [hj]
          · exact r7 u x hx
    · cases hs
  | store t =>
    simp only [step] at hs
    split at hs
    · next j ok st ht =>
      obtain ⟨r1, r2, r3, r4, r5, r5', r6, r7⟩ := hR
      obtain ⟨o1, o2, o3, o4, o5⟩ := r7 t _ ht
      cases hs
      have cA' := cnt_set (Thread.isAsleep k) ⟨.broadcasting j ok, st⟩ ht
      have cB' := cnt_set (Thread.isBroadcasting k) ⟨.broadcasting j ok, st⟩ ht
      simp [Thread.isAsleep, Thread.isBroadcasting] at cA' cB'
      by_cases hj : j = k
      · subst hj
        simp only [PC.isEnded, decide_true, b2n_true] at o1
        have hst : j ∉ st := by
          rw [← List.count_eq_zero]; have := b2n_le (decide (h = some t)); omega
        have hh : h = some t := by
          exact Classical.byContradiction fun hb => by simp [hb] at o1
        subst hh
        have hdone : q.done = ok := o4 ok rfl
        have hrun : q.running = none := by
          cases hq : q.running with
          | none => rfl
          | some u => have := (r4 u hq).1; cases this; exact absurd (o2.mp hq) hst
        have hbusy := r1.mpr (by simp)
        have hpos : 0 < cnt (Thread.isBroadcasting j) (s.ts.set t ⟨.broadcasting j ok, st⟩) := by
          have := cB'; simp at this; omega
        refine ⟨none, ?_, ?_, ?_, by simp [hrun], r5, by simp, ?_, ?_⟩
        · cases ok <;> simp [State.setFlag]
        · cases ok <;> simp [State.setFlag, hdone]
        · cases ok <;> simp [State.setFlag, hdone]
        · intro _; exact Or.inr hpos
        · intro u x hx
          simp only [getElem?_set_eq ht] at hx
          split at hx
          · next hu =>
            cases hx; subst hu
            refine ⟨?_, by simp [hrun, hst], ?_, by simp, ?_⟩
            · simp [PC.isEnded, List.count_eq_zero, hst]
            · rw [o3]; cases ok <;> simp [PC.isThrowing]
            · intro hb; cases hb; simp [State.setFlag]
          · next hu =>
            obtain ⟨p1, p2, p3, p4, p5⟩ := r7 u x hx
            simp [hu] at p1
            refine ⟨by simp [p1.1, p1.2], p2, p3, p4, ?_⟩
            intro hb; have := p5 hb; rw [hbusy] at this; cases this
      · refine ⟨h, ?_, ?_, ?_, r4, r5, ?_, ?_, ?_⟩
        · simpa [State.setFlag, Ne.symm hj] using r1
        · simpa [State.setFlag, Ne.symm hj] using r2
        · simpa [State.setFlag, Ne.symm hj] using r3
        · intro u hu; obtain ⟨x, hx⟩ := r5' u hu; simp only [getElem?_set_eq ht]; split <;> simp_all
        · simp only [State.setFlag, Ne.symm hj, if_false]; simp [hj] at cB'; rw [cA', cB']; exact r6
        · intro u x hx
          simp only [State.setFlag, Ne.symm hj, if_false]
          simp only [getElem?_set_eq ht] at hx
          split at hx
          · next hu =>
            cases hx; subst hu
            refine ⟨?_, o2, ?_, by simp, by simp [hj]⟩
            · simpa [PC.isEnded, hj] using o1
            · rw [o3]; cases ok <;> simp [PC.isThrowing, hj]
          · exact r7 u x hx
    · cases hs
  | broadcast t =>
    simp only [step] at hs
    split at hs
    · next j ok st ht =>
      obtain ⟨r1, r2, r3, r4, r5, r5', r6, r7⟩ := hR
      obtain ⟨o1, o2, o3, o4, o5⟩ := r7 t _ ht
      cases hs
      have hm : (s.ts.map fun x : Thread => { x with pc := x.pc.wake })[t]? = some ⟨.broadcasting j ok, st⟩ := by
        simp [ht, PC.wake]
      have cA' := cnt_set (Thread.isAsleep k) ⟨.user, st⟩ hm
      have hz : cnt (Thread.isAsleep k) (s.ts.map fun x : Thread => { x with pc := x.pc.wake }) = 0 := by
        rw [cnt_map, cnt_eq_zero]
        intro u x _
        obtain ⟨pc, _⟩ := x
        cases pc <;> simp [PC.wake, Thread.isAsleep]
      rw [hz] at cA'
      simp [Thread.isAsleep] at cA'
      have hhold : ∀ u, h = some u → ∃ x,
          ((s.ts.map fun x : Thread => { x with pc := x.pc.wake }).set t ⟨.user, st⟩)[u]? = some x := by
        intro u hu; obtain ⟨x, hx⟩ := r5' u hu
        simp only [getElem?_set_eq hm]
        split
        · exact ⟨_, rfl⟩
        · simp [hx]
      have hall : ∀ q' : Flag, q'.running = q.running → q'.done = q.done →
          (∀ u, u ≠ t → (u ∈ q'.throwing ↔ u ∈ q.throwing)) → t ∉ q'.throwing →
          ∀ u x, ((s.ts.map fun x : Thread => { x with pc := x.pc.wake }).set t ⟨.user, st⟩)[u]? = some x →
            Ok k (s.flag k) q' h u x := by
        intro q' e1 e2 e3 e4 u x hx
        simp only [getElem?_set_eq hm] at hx
        split at hx
        · next hu =>
          cases hx; subst hu
          exact ⟨by simpa [PC.isEnded] using o1, by rw [e1]; exact o2, by simp [PC.isThrowing, e4], by simp, by simp⟩
        · next hu =>
          simp only [List.getElem?_map, Option.map_eq_some_iff] at hx
          obtain ⟨y, hy, rfl⟩ := hx
          obtain ⟨p1, p2, p3, p4, p5⟩ := (r7 u y hy).wake
          exact ⟨p1, by rw [e1]; exact p2, by rw [e3 u (Ne.symm hu)]; exact p3, by rw [e2]; exact p4, p5⟩
      by_cases hj : j = k
      · subst hj
        cases ok with
        | true =>
          simp only [PC.isThrowing, Bool.false_eq_true, iff_false] at o3
          exact follows_one (q' := q) (by simp [specNext, o3, r2 (o5 rfl)])
            ⟨h, r1, r2, r3, r4, r5, hhold, by simp only [cA']; omega, hall q rfl rfl (fun _ _ => Iff.rfl) o3⟩
        | false =>
          have htm : t ∈ q.throwing := o3.mpr (by simp [PC.isThrowing])
          refine follows_one (q' := { q with throwing := q.throwing.erase t }) (by simp [specNext, htm])
            ⟨h, r1, r2, r3, r4, r5.erase t, hhold, by simp only [cA']; omega, hall _ rfl rfl ?_ ?_⟩
          · intro u hu; simp [List.mem_erase_of_ne hu]
          · exact fun hc => (List.Nodup.not_mem_erase r5) hc
      · have o3' : t ∉ q.throwing := by rw [o3]; cases ok <;> simp [PC.isThrowing, hj]
        exact follows_one (q' := q) (by cases ok <;> simp [specNext, hj])
          ⟨h, r1, r2, r3, r4, r5, hhold, by simp only [cA']; omega, hall q rfl rfl (fun _ _ => Iff.rfl) o3'⟩
    · cases hs

end Verif.Once
