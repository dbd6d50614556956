import Verif.CompletionLatch.Spec
/-! # Invariant of the completion latch -/

set_option linter.unusedSimpArgs false

namespace Verif.CompletionLatch

/-- Counted in `waiters_`. -/
def PC.isReg : PC → Bool
  | .w2 _ _ => true
  | .w3 _ _ => true
  | .expired => true
  | _ => false

def PC.isArr : PC → Bool
  | .a1 _ => true
  | .a2 _ => true
  | .run => true
  | _ => false

/-- What the program counter says about `leavers_` and `waiters_`. -/
def Ok (lv wt : Nat) : PC → Prop
  | .idle => True
  | .w1 _ a => a = true → lv ≠ 0
  | .w2 _ a => a = true → lv = 0
  | .w3 _ a => a = false ∧ lv ≠ 0
  | .expired => lv ≠ 0
  | .a1 a => lv = 0 ∧ (a = true → wt = 0)
  | .a2 a => lv ≠ 0 ∧ (a = true → wt ≠ 0)
  | .run => lv = 0

structure R (s : State) (q : L) : Prop where
  cnt : s.count = q.count
  fct : s.fct = q.fct
  arr0 : q.arriver ≠ none → s.count = 0
  lv0 : q.arriver = none → s.leavers = 0
  wt : s.waiters = Verif.cnt PC.isReg s.ts
  arr : ∀ (t : Nat) p, s.ts[t]? = some p → (p.isArr = true ↔ q.arriver = some t)
  ex : ∀ t, q.arriver = some t → t < s.ts.length
  ok : ∀ (t : Nat) p, s.ts[t]? = some p → Ok s.leavers s.waiters p

theorem R_init (count f n : Nat) : R (init count f n) (L.new count f) := by
  have he : ∀ (t : Nat) p, (List.replicate n PC.idle)[t]? = some p → p = .idle :=
    fun t p hp => List.eq_of_mem_replicate (List.mem_of_getElem? hp)
  refine ⟨rfl, rfl, by simp [L.new], fun _ => rfl, ?_, ?_, by simp [L.new], ?_⟩
  · simp [init, cnt_replicate, PC.isReg]
  · intro t p hp; rw [he t p hp]; simp [PC.isArr, L.new]
  · intro t p hp; rw [he t p hp]; trivial

theorem isReg_wakeW (p : PC) : p.wakeW.isReg = p.isReg := by cases p <;> rfl
theorem isReg_wakeL (p : PC) : p.wakeL.isReg = p.isReg := by cases p <;> rfl
theorem isReg_wakeC (p : PC) : p.wakeC.isReg = p.isReg := by cases p <;> rfl
theorem isArr_wakeW (p : PC) : p.wakeW.isArr = p.isArr := by cases p <;> rfl
theorem isArr_wakeL (p : PC) : p.wakeL.isArr = p.isArr := by cases p <;> rfl
theorem isArr_wakeC (p : PC) : p.wakeC.isArr = p.isArr := by cases p <;> rfl

theorem Ok.wakeW {lv wt wt' : Nat} {p : PC} (h : Ok lv wt p) : Ok lv wt' p.wakeW := by
  cases p <;> simp_all [Ok, PC.wakeW]

theorem Ok.wakeL {lv lv' wt : Nat} {p : PC} (h : Ok lv wt p) (hp : p.isArr = false) (hw : p.isReg = true → ∃ k a, p = .w2 k a) : Ok lv' wt p.wakeL := by
  cases p <;> simp_all [Ok, PC.wakeL, PC.isArr, PC.isReg]

/-- One thread changes its place; the counters stay. -/
theorem R.move {s : State} {q : L} {t : Nat} {p p' : PC} (hR : R s q) (ht : s.ts[t]? = some p) (h1 : p'.isReg = p.isReg)
    (h2 : p'.isArr = p.isArr) (h3 : Ok s.leavers s.waiters p') : R { s with ts := s.ts.set t p' } q := by
  obtain ⟨r1, r2, r3, r4, r5, r6, r7, r8⟩ := hR
  refine ⟨r1, r2, r3, r4, ?_, ?_, by simpa using r7, ?_⟩
  · have := cnt_set PC.isReg p' ht; rw [h1] at this; simp only; omega
  · intro u r hr
    simp only [getElem?_set_eq ht] at hr
    split at hr
    · next hu => cases hr; subst hu; rw [h2]; exact r6 t p ht
    · exact r6 u r hr
  · intro u r hr
    simp only [getElem?_set_eq ht] at hr
    split at hr
    · cases hr; exact h3
    · exact r8 u r hr

/-- `waiters_` changes together with thread `t`. -/
theorem R.waiters {s : State} {q : L} {t : Nat} {p p' : PC} {n : Nat} (hR : R s q) (ht : s.ts[t]? = some p)
    (h1 : n + b2n p.isReg = s.waiters + b2n p'.isReg) (h2 : p.isArr = false) (h2' : p'.isArr = false) (h3 : Ok s.leavers n p') :
    R { s with waiters := n, ts := (s.ts.map PC.wakeW).set t p' } q := by
  obtain ⟨r1, r2, r3, r4, r5, r6, r7, r8⟩ := hR
  have hm : (s.ts.map PC.wakeW)[t]? = some p.wakeW := by simp [ht]
  refine ⟨r1, r2, r3, r4, ?_, ?_, by simpa using r7, ?_⟩
  · have := cnt_set PC.isReg p' hm
    have e : Verif.cnt PC.isReg (s.ts.map PC.wakeW) = Verif.cnt PC.isReg s.ts := by
      rw [cnt_map]; exact cnt_congr _ isReg_wakeW
    rw [e, isReg_wakeW] at this; simp only; omega
  · intro u r hr
    simp only [getElem?_set_eq hm] at hr
    split at hr
    · next hu => cases hr; subst hu; rw [h2', ← h2]; exact r6 t p ht
    · simp only [List.getElem?_map, Option.map_eq_some_iff] at hr
      obtain ⟨y, hy, rfl⟩ := hr
      rw [isArr_wakeW]; exact r6 u y hy
  · intro u r hr
    simp only [getElem?_set_eq hm] at hr
    split at hr
    · cases hr; exact h3
    · simp only [List.getElem?_map, Option.map_eq_some_iff] at hr
      obtain ⟨y, hy, rfl⟩ := hr
      exact (r8 u y hy).wakeW

theorem follows_one {P : L → Prop} {q q' : L} {e : Event} (h : specNext q e = .ok q') (hp : P q') : Follows specNext P q [e] := by
  simp [Follows, h, hp]

/-- In the invariant, a thread past line 56 finds the count at zero. -/
theorem count_zero {s : State} {q : L} (hR : R s q) (h : s.leavers ≠ 0) : s.count = 0 := by
  apply hR.arr0
  intro hn
  exact h (hR.lv0 hn)

theorem leave_follows {s : State} {q : L} {t : Nat} {p : PC} (hR : R s q) (ht : s.ts[t]? = some p) (hp : p.isReg = true)
    (hz : s.count = 0) : Follows specNext (R (leave s t (.passed t)).1) q (leave s t (.passed t)).2 := by
  have hq : q.count = 0 := by rw [← hR.cnt]; exact hz
  have hpos : 0 < s.waiters := by rw [hR.wt]; exact cnt_pos ht hp
  refine follows_one (q' := q) (by simp [specNext, hq]) ?_
  refine hR.waiters ht ?_ (by cases p <;> simp_all [PC.isReg, PC.isArr]) rfl trivial
  rw [hp]; simp [PC.isReg]; omega

theorem go3_follows {s : State} {q : L} {t : Nat} {k : Kind} (hR : R s q) (ht : s.ts[t]? = some (.w3 k false)) :
    Follows specNext (R (go3 s t k).1) q (go3 s t k).2 := by
  have hz := count_zero hR (hR.ok t _ ht).2
  simp only [go3, if_pos hz]
  exact leave_follows hR ht rfl hz

theorem go2_follows {s : State} {q : L} {t : Nat} {k : Kind} (hR : R s q) (ht : s.ts[t]? = some (.w2 k false)) :
    Follows specNext (R (go2 s t k).1) q (go2 s t k).2 := by
  simp only [go2]
  split
  · next h =>
    have h1 := hR.move ht (p' := .w3 k false) rfl rfl ⟨rfl, h⟩
    exact go3_follows h1 (by simp [getElem?_set_eq ht])
  · next h =>
    simp only [ne_eq, Decidable.not_not] at h
    exact hR.move ht rfl rfl (fun _ => h)

theorem go1_follows {s : State} {q : L} {t : Nat} {k : Kind} (hR : R s q) (ht : s.ts[t]? = some (.w1 k false)) :
    Follows specNext (R (go1 s t k).1) q (go1 s t k).2 := by
  simp only [go1]
  split
  · next h =>
    have h1 := hR.waiters ht (n := s.waiters + 1) (p' := .w2 k false) (by simp [PC.isReg]) rfl rfl (by simp [Ok])
    exact go2_follows h1 (by have hm : (s.ts.map PC.wakeW)[t]? = some (PC.w1 k false).wakeW := by simp [ht]
                             simp [getElem?_set_eq hm])
  · next h => exact hR.move ht rfl rfl (fun _ => h)

theorem only_arriver {s : State} {q : L} {t u : Nat} {p r : PC} (hR : R s q) (ht : s.ts[t]? = some p) (hp : p.isArr = true)
    (hu : s.ts[u]? = some r) (hne : u ≠ t) : r.isArr = false := by
  cases h : r.isArr with
  | false => rfl
  | true =>
    have h1 := (hR.arr t p ht).mp hp
    have h2 := (hR.arr u r hu).mp h
    rw [h1] at h2; cases h2; exact absurd rfl hne

theorem goA2_follows {s : State} {q : L} {t : Nat} (hR : R s q) (ht : s.ts[t]? = some (.a2 false)) :
    Follows specNext (R (goA2 s t).1) q (goA2 s t).2 := by
  simp only [goA2]
  split
  · next h =>
    have hm : (s.ts.map PC.wakeL)[t]? = some (.a2 false) := by simp [ht, PC.wakeL]
    have hn : ∀ (u : Nat) (r : PC), s.ts[u]? = some r → r.isReg = false := by
      have := hR.wt; rw [h] at this
      intro u r hr
      exact cnt_eq_zero.mp this.symm u r hr
    have hot := fun u r hu hne => only_arriver (u := u) (r := r) hR ht rfl hu hne
    obtain ⟨r1, r2, r3, r4, r5, r6, r7, r8⟩ := hR
    refine ⟨r1, r2, r3, fun _ => rfl, ?_, ?_, by simpa using r7, ?_⟩
    · have := cnt_set PC.isReg PC.run hm
      have e : Verif.cnt PC.isReg (s.ts.map PC.wakeL) = Verif.cnt PC.isReg s.ts := by
        rw [cnt_map]; exact cnt_congr _ isReg_wakeL
      rw [e] at this; simp [PC.isReg] at this; simp only; omega
    · intro u r hr
      simp only [getElem?_set_eq hm] at hr
      split at hr
      · next hu => cases hr; subst hu; exact r6 t (.a2 false) ht
      · simp only [List.getElem?_map, Option.map_eq_some_iff] at hr
        obtain ⟨y, hy, rfl⟩ := hr
        rw [isArr_wakeL]; exact r6 u y hy
    · intro u r hr
      simp only [getElem?_set_eq hm] at hr
      split at hr
      · cases hr; simp [Ok]
      · next hu =>
        simp only [List.getElem?_map, Option.map_eq_some_iff] at hr
        obtain ⟨y, hy, rfl⟩ := hr
        refine (r8 u y hy).wakeL (hot u y hy (Ne.symm hu)) ?_
        intro h; rw [hn u y hy] at h; cases h
  · next h => exact hR.move ht rfl rfl ⟨(hR.ok t _ ht).1, fun _ => h⟩

theorem goA1_follows {s : State} {q : L} {t : Nat} (hR : R s q) (ht : s.ts[t]? = some (.a1 false)) :
    Follows specNext (R (goA1 s t).1) q (goA1 s t).2 := by
  simp only [goA1]
  split
  · next h =>
    have hm : ((s.ts.map PC.wakeL).map PC.wakeC)[t]? = some (.a1 false) := by simp [ht, PC.wakeL, PC.wakeC]
    apply goA2_follows
    · have hot := fun u r hu hne => only_arriver (u := u) (r := r) hR ht rfl hu hne
      have hlv := (hR.ok t _ ht).1
      have harr := (hR.arr t _ ht).mp rfl
      obtain ⟨r1, r2, r3, r4, r5, r6, r7, r8⟩ := hR
      refine ⟨r1, r2, r3, fun hn => (by rw [harr] at hn; cases hn), ?_, ?_, by simpa using r7, ?_⟩
      · have := cnt_set PC.isReg (PC.a2 false) hm
        have e : Verif.cnt PC.isReg ((s.ts.map PC.wakeL).map PC.wakeC) = Verif.cnt PC.isReg s.ts := by
          rw [cnt_map, cnt_map]; exact cnt_congr _ (fun a => by rw [isReg_wakeC, isReg_wakeL])
        rw [e] at this; simp only [PC.isReg, b2n_false] at this; simp only; omega
      · intro u r hr
        simp only [getElem?_set_eq hm] at hr
        split at hr
        · next hu => cases hr; subst hu; exact r6 t (.a1 false) ht
        · simp only [List.getElem?_map, Option.map_eq_some_iff] at hr
          obtain ⟨z, ⟨y, hy, rfl⟩, rfl⟩ := hr
          rw [isArr_wakeC, isArr_wakeL]; exact r6 u y hy
      · intro u r hr
        simp only [getElem?_set_eq hm] at hr
        split at hr
        · cases hr; exact ⟨h, by simp⟩
        · next hu =>
          simp only [List.getElem?_map, Option.map_eq_some_iff] at hr
          obtain ⟨z, ⟨y, hy, rfl⟩, rfl⟩ := hr
          have o := r8 u y hy
          have ha := hot u y hy (Ne.symm hu)
          cases y <;> simp_all [Ok, PC.wakeL, PC.wakeC, PC.isArr]
    · simp only [getElem?_set_eq hm]; simp
  · next h =>
    simp only [ne_eq, Decidable.not_not] at h
    exact hR.move ht rfl rfl ⟨(hR.ok t _ ht).1, fun _ => h⟩

theorem follows_cons {P : L → Prop} {q q' : L} {e : Event} {es : List Event} (h : specNext q e = .ok q') (hp : Follows specNext P q' es) :
    Follows specNext P q (e :: es) := by
  simp [Follows, h, hp]

theorem countDown_follows {s : State} {q : L} {t : Nat} {w : Bool} (hR : R s q) (ht : s.ts[t]? = some .idle) :
    Follows specNext (R (countDown s t w).1) q (countDown s t w).2 := by
  have hc := hR.cnt
  simp only [countDown]
  split
  · next h => simp [Follows, specNext, show q.count = 0 by omega]
  · next h =>
    have hq : q.count ≠ 0 := by omega
    have hno : q.arriver = none := by
      cases ha : q.arriver with
      | none => rfl
      | some u => exact absurd (hR.arr0 (by simp [ha])) h
    split
    · next h1 =>
      have hq1 : q.count = 1 := by omega
      refine follows_cons (q' := { q with count := 0, arriver := some t }) (by simp [specNext, hq1]) ?_
      apply goA1_follows
      · have hlv := hR.lv0 hno
        obtain ⟨r1, r2, r3, r4, r5, r6, r7, r8⟩ := hR
        refine ⟨rfl, r2, fun _ => rfl, by simp, ?_, ?_, ?_, ?_⟩
        · have := cnt_set PC.isReg (PC.a1 false) ht; simp [PC.isReg] at this; simp only; omega
        · intro u r hr
          simp only [getElem?_set_eq ht] at hr
          split at hr
          · next hu => cases hr; subst hu; simp [PC.isArr]
          · next hu =>
            have := r6 u r hr; rw [hno] at this
            simp only [this]; simp [hu]
        · rintro u ⟨⟩; simp; exact (List.getElem?_eq_some_iff.mp ht).1
        · intro u r hr
          simp only [getElem?_set_eq ht] at hr
          split at hr
          · cases hr; exact ⟨hlv, by simp⟩
          · exact r8 u r hr
      · simp [getElem?_set_eq ht]
    · next h1 =>
      have hR' : R { s with count := s.count - 1 } { q with count := q.count - 1 } := by
        obtain ⟨r1, r2, r3, r4, r5, r6, r7, r8⟩ := hR
        exact ⟨by simp only; omega, r2, fun h => absurd hno h, r4, r5, r6, r7, r8⟩
      have hn : specNext q (.counted t) = .ok { q with count := q.count - 1 } := by
        simp only [specNext, if_neg hq]; rw [if_neg (by omega)]
      split
      · refine follows_cons hn ?_
        exact go1_follows (hR'.move ht (p' := .w1 .countDown false) rfl rfl (by simp [Ok])) (by simp [getElem?_set_eq ht])
      · exact follows_one hn hR'

theorem step_follows {s s' : State} {l : Label} {es : List Event} {q : L} (hl : l.isInterrupt = false) (hR : R s q)
    (hs : step s l = some (s', es)) : Follows specNext (R s') q es := by
  have fin : ∀ {x : State × List Event}, some x = some (s', es) → Follows specNext (R x.1) q x.2 → Follows specNext (R s') q es := by
    intro x h1 h2; cases h1; exact h2
  cases l with
  | wait t k =>
    simp only [step] at hs
    split at hs
    · next ht =>
      split at hs
      · cases hs
      · exact fin hs (go1_follows (hR.move ht (p' := .w1 k false) rfl rfl (by simp [Ok])) (by simp [getElem?_set_eq ht]))
    · cases hs
  | countDown t w =>
    simp only [step] at hs
    split at hs
    · next ht => exact fin hs (countDown_follows hR ht)
    · cases hs
  | complete t =>
    simp only [step] at hs
    split at hs
    · next ht =>
      cases hs
      have ha := (hR.arr t _ ht).mp rfl
      have hot := fun u r hu hne => only_arriver (u := u) (r := r) hR ht rfl hu hne
      have hlv := hR.ok t _ ht
      refine follows_one (q' := { q with arriver := none }) (by simp [specNext, ha, hR.fct]) ?_
      obtain ⟨r1, r2, r3, r4, r5, r6, r7, r8⟩ := hR
      refine ⟨r1, r2, by simp, fun _ => hlv, ?_, ?_, by simp, ?_⟩
      · have := cnt_set PC.isReg PC.idle ht; simp [PC.isReg] at this; simp only; omega
      · intro u r hr
        simp only [getElem?_set_eq ht] at hr
        split at hr
        · cases hr; simp [PC.isArr]
        · next hu => have := hot u r hr (Ne.symm hu); simp [this]
      · intro u r hr
        simp only [getElem?_set_eq ht] at hr
        split at hr
        · cases hr; trivial
        · exact r8 u r hr
    · cases hs
  | reset t n =>
    simp only [step] at hs
    split at hs <;> cases hs
    by_cases ha : q.arriver = none
    · refine follows_one (q' := { q with count := n }) (by simp [specNext, ha]) ?_
      exact ⟨rfl, hR.fct, fun h => absurd ha h, hR.lv0, hR.wt, hR.arr, hR.ex, hR.ok⟩
    · simp [Follows, specNext, ha]
  | then_ t f =>
    simp only [step] at hs
    split at hs <;> cases hs
    by_cases ha : q.arriver = none
    · refine follows_one (q' := { q with fct := f }) (by simp [specNext, ha, hR.fct]) ?_
      exact ⟨hR.cnt, rfl, hR.arr0, hR.lv0, hR.wt, hR.arr, hR.ex, hR.ok⟩
    · simp [Follows, specNext, ha]
  | resume t =>
    simp only [step] at hs
    split at hs
    · next ht => exact fin hs (go1_follows hR ht)
    · next ht => exact fin hs (go2_follows hR ht)
    · next ht => exact fin hs (go3_follows hR ht)
    · next ht =>
      have hz := count_zero hR (hR.ok t _ ht)
      rw [if_pos hz] at hs
      exact fin hs (leave_follows hR ht rfl hz)
    · next ht => exact fin hs (goA1_follows hR ht)
    · next ht => exact fin hs (goA2_follows hR ht)
    · cases hs
  | spurious t =>
    simp only [step] at hs
    split at hs
    · next ht => cases hs; exact hR.move ht rfl rfl (by simp [Ok])
    · next ht => cases hs; exact hR.move ht rfl rfl (by simp [Ok])
    · next ht => exact absurd (hR.ok t _ ht).1 (by simp)
    · next ht => cases hs; exact hR.move ht rfl rfl ⟨(hR.ok t _ ht).1, by simp⟩
    · next ht => cases hs; exact hR.move ht rfl rfl ⟨(hR.ok t _ ht).1, by simp⟩
    · cases hs
  | timeout t =>
    simp only [step] at hs
    split at hs
    · next a ht => cases hs; exact hR.move ht rfl rfl (hR.ok t _ ht).2
    · cases hs
  | interrupt t => cases hl

theorem go1_quiet (s : State) (t : Nat) (k : Kind) : (go1 s t k).2 = [] := by
  simp only [go1]
  split
  · next h => simp [go2, h]
  · rfl

theorem goA2_quiet (s : State) (t : Nat) : (goA2 s t).2 = [] := by
  simp only [goA2]; split <;> rfl

theorem goA1_quiet (s : State) (t : Nat) : (goA1 s t).2 = [] := by
  simp only [goA1]
  split
  · exact goA2_quiet _ _
  · rfl

/-- In the invariant no wait fails. -/
theorem step_noFail {s s' : State} {l : Label} {es : List Event} {q : L} (hl : l.isInterrupt = false) (hR : R s q)
    (hs : step s l = some (s', es)) (u : Nat) : Event.failed u ∉ es := by
  have fin : ∀ {x : State × List Event}, some x = some (s', es) → Event.failed u ∉ x.2 → Event.failed u ∉ es := by
    intro x h1 h2; cases h1; exact h2
  cases l with
  | wait t k =>
    simp only [step] at hs
    split at hs
    · split at hs
      · cases hs
      · exact fin hs (by simp [go1_quiet])
    · cases hs
  | countDown t w =>
    simp only [step] at hs
    split at hs
    · refine fin hs ?_
      simp only [countDown]
      split
      · simp
      · split
        · simp [goA1_quiet]
        · split
          · simp [go1_quiet]
          · simp
    · cases hs
  | resume t =>
    simp only [step] at hs
    split at hs
    · exact fin hs (by simp [go1_quiet])
    · next ht =>
      refine fin hs ?_
      simp only [go2]
      split
      · next h => simp [go3, count_zero hR h, leave]
      · simp
    · next ht => exact fin hs (by simp [go3, count_zero hR (hR.ok t _ ht).2, leave])
    · next ht =>
      rw [if_pos (count_zero hR (hR.ok t _ ht))] at hs
      exact fin hs (by simp [leave])
    · exact fin hs (by simp [goA1_quiet])
    · exact fin hs (by simp [goA2_quiet])
    · cases hs
  | interrupt t => cases hl
  | _ => simp only [step] at hs; (repeat' split at hs) <;> cases hs <;> simp

end Verif.CompletionLatch
