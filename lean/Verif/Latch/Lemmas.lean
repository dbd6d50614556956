import Verif.Latch.Spec
/-! # Simulation for the latch -/

set_option linter.unusedSimpArgs false

namespace Verif.Latch

structure Ok (gen : Nat) (q : L) (t : Nat) (p : PC) : Prop where
  idle : (t ∈ q.waiting ∨ t ∈ q.released) ↔ p ≠ .idle
  wa : ∀ k m g, p = .inside k m g → (t ∈ q.waiting ↔ g = gen) ∧ g ≤ gen ∧ (m = .asleep → g = gen)

structure R (s : State) (q : L) : Prop where
  cnt : s.count = q.count
  zero : q.count = 0 → q.waiting = []
  nd : (q.waiting ++ q.released).Nodup
  all : ∀ t p, s.ts[t]? = some p → Ok s.generation q t p

theorem R_init (count n : Nat) : R (init count n) (L.new count) := by
  refine ⟨rfl, fun _ => rfl, by simp [L.new], ?_⟩
  intro t p hp
  have := List.eq_of_mem_replicate (List.mem_of_getElem? hp)
  subst this
  exact ⟨by simp [L.new], by simp⟩

/-- Steps that move one thread without touching the latch. -/
theorem R.move {s : State} {q : L} {t : Nat} {p p' : PC} (hR : R s q) (ht : s.ts[t]? = some p) (ho : Ok s.generation q t p') :
    R { s with ts := s.ts.set t p' } q := by
  refine ⟨hR.cnt, hR.zero, hR.nd, ?_⟩
  intro u r hr
  simp only [getElem?_set_eq ht] at hr
  split at hr
  · next hu => cases hr; subst hu; exact ho
  · exact hR.all u r hr

/-- Thread `t` leaves. -/
theorem R.leave {s : State} {q : L} {t : Nat} {p : PC} (hR : R s q) (ht : s.ts[t]? = some p) :
    R { s with ts := s.ts.set t .idle } { q with waiting := q.waiting.erase t, released := q.released.erase t } := by
  obtain ⟨r1, r2, r3, r4⟩ := hR
  obtain ⟨n1, n2, n3⟩ := List.nodup_append.mp r3
  refine ⟨r1, fun h => by simp [r2 h], ?_, ?_⟩
  · exact List.nodup_append.mpr ⟨n1.erase t, n2.erase t, fun a ha c hc => n3 a (List.mem_of_mem_erase ha) c (List.mem_of_mem_erase hc)⟩
  · intro u r hr
    simp only [getElem?_set_eq ht] at hr
    split at hr
    · next hu => cases hr; subst hu; exact ⟨by simp [n1.not_mem_erase, n2.not_mem_erase], by simp⟩
    · next hu =>
      have := r4 u r hr
      exact ⟨by simp only [List.mem_erase_of_ne (Ne.symm hu)]; exact this.idle,
        by simp only [List.mem_erase_of_ne (Ne.symm hu)]; exact this.wa⟩

/-- Thread `t`, outside, begins to wait. -/
theorem R.enter {s : State} {q : L} {t : Nat} (k : Bool) (hR : R s q) (ht : s.ts[t]? = some .idle) (hz : q.count ≠ 0) :
    R { s with ts := s.ts.set t (.inside k .asleep s.generation) } { q with waiting := t :: q.waiting } := by
  obtain ⟨r1, r2, r3, r4⟩ := hR
  have o := (r4 t _ ht).idle
  simp at o
  refine ⟨r1, fun h => absurd h hz, by simp [o, r3], ?_⟩
  intro u r hr
  simp only [getElem?_set_eq ht] at hr
  split at hr
  · next hu => cases hr; subst hu; exact ⟨by simp, by rintro k m g ⟨⟩; simp⟩
  · next hu =>
    have := r4 u r hr
    exact ⟨by simpa [Ne.symm hu] using this.idle, by simpa [Ne.symm hu] using this.wa⟩

/-- The count reaches zero. -/
theorem R.zeroed {s : State} {q : L} (hR : R s q) :
    R { count := 0, generation := s.generation + 1, ts := s.ts.map PC.wake } (q.set 0) := by
  obtain ⟨r1, r2, r3, r4⟩ := hR
  refine ⟨rfl, fun _ => rfl, by simpa [L.set] using r3, ?_⟩
  intro u r hr
  simp only [List.getElem?_map, Option.map_eq_some_iff] at hr
  obtain ⟨y, hy, rfl⟩ := hr
  have o := r4 u y hy
  refine ⟨?_, ?_⟩
  · have : y.wake ≠ .idle ↔ y ≠ .idle := by cases y with
      | idle => simp [PC.wake]
      | inside k m g => cases m <;> simp [PC.wake]
    rw [this, ← o.idle]; simp [L.set]
  · intro k m g e
    cases y with
    | idle => simp [PC.wake] at e
    | inside k' m' g' =>
      have h2 := o.wa k' m' g' rfl
      cases m' <;> simp only [PC.wake, PC.inside.injEq] at e <;> obtain ⟨rfl, rfl, rfl⟩ := e <;>
        exact ⟨by simp [L.set]; omega, by simp only; omega, by simp⟩

theorem R.countDown {s : State} {q : L} (hR : R s q) (hz : q.count ≠ 0) :
    R (countDown s).1 (q.set (q.count - 1)) ∧ ((countDown s).2 = true ↔ q.count = 1) := by
  have h1 := hR.cnt
  simp only [Latch.countDown]
  split
  · omega
  · split
    · next h => rw [show q.count - 1 = 0 by omega]; exact ⟨hR.zeroed, by simp; omega⟩
    · next h0 h =>
      have h2 : q.count - 1 ≠ 0 := by omega
      refine ⟨?_, by simp; omega⟩
      simp only [L.set, if_neg h2]
      exact ⟨by simp only; omega, fun h => absurd h h2, hR.nd, fun t p hp => ⟨(hR.all t p hp).idle, (hR.all t p hp).wa⟩⟩

theorem follows_one {P : L → Prop} {q q' : L} {e : Event} (h : specNext q e = .ok q') (hp : P q') : Follows specNext P q [e] := by
  simp [Follows, h, hp]

theorem countDown_ts {s : State} (h : (countDown s).2 = false) : (countDown s).1.ts = s.ts ∧ (countDown s).1.generation = s.generation := by
  simp only [countDown] at h ⊢
  split
  · exact ⟨rfl, rfl⟩
  · split
    · simp_all
    · exact ⟨rfl, rfl⟩

theorem step_follows {s s' : State} {l : Label} {es : List Event} {q : L} (hl : l.isResetToZero = false) (hR : R s q)
    (hs : step s l = some (s', es)) : Follows specNext (R s') q es := by
  have hc := hR.cnt
  cases l with
  | wait t timed =>
    simp only [step] at hs
    split at hs
    · next ht =>
      have o := (hR.all t _ ht).idle
      simp at o
      split at hs <;> cases hs
      · next hz =>
        have h0 : q.count = 0 := by omega
        simp only [Follows, specNext, L.enter, if_pos h0, List.mem_cons, true_or, if_true, List.erase_cons_head]
        exact hR
      · next hz =>
        have h0 : q.count ≠ 0 := by omega
        exact follows_one (q' := { q with waiting := t :: q.waiting }) (by simp [specNext, L.enter, h0]) (hR.enter timed ht h0)
    · cases hs
  | tryWait t =>
    simp only [step] at hs
    split at hs <;> cases hs
    exact follows_one (q' := q) (by simp [specNext, hc]) hR
  | countDown t =>
    simp only [step] at hs
    split at hs <;> cases hs
    by_cases h0 : q.count = 0
    · simp [Follows, specNext, h0]
    · exact follows_one (by simp only [specNext, if_neg h0]) (hR.countDown h0).1
  | tryCountDown t =>
    simp only [step] at hs
    split at hs <;> cases hs
    simp only [tryCountDown]
    by_cases h0 : q.count = 0
    · rw [if_neg (by omega)]
      exact follows_one (q' := q) (by simp [specNext, h0]) hR
    · rw [if_pos (by omega)]
      have := hR.countDown h0
      refine follows_one ?_ this.1
      have e : (countDown s).2 = decide (q.count ≤ 1) := by
        cases h : (countDown s).2
        · have : q.count ≠ 1 := fun hh => by rw [this.2.mpr hh] at h; cases h
          have : ¬ q.count ≤ 1 := by omega
          simp [this]
        · have := this.2.mp h; simp [this]
      simp only [specNext, e, if_true, if_neg h0]
  | countDownAndWait t =>
    simp only [step] at hs
    split at hs
    · next ht =>
      have o := (hR.all t _ ht).idle
      simp at o
      by_cases h0 : q.count = 0
      · have : ∀ es', Follows specNext (R s') q (.countedAndWaits t :: es') := by intro es'; simp [Follows, specNext, h0]
        split at hs <;> cases hs <;> exact this _
      · obtain ⟨h1, h2⟩ := hR.countDown h0
        split at hs
        · next hd =>
          cases hs
          have e := h2.mp hd
          have e1 : q.count - 1 = 0 := by omega
          rw [e1] at h1
          simp only [Follows, specNext, if_neg h0, e1, L.set, if_true, List.cons_append, List.mem_cons, true_or, List.erase_cons_head]
          simpa [L.set] using h1
        · next hd =>
          cases hs
          have hd' : (countDown s).2 = false := by simpa using hd
          have e : q.count - 1 ≠ 0 := by
            have : q.count ≠ 1 := fun hh => by rw [h2.mpr hh] at hd'; cases hd'
            omega
          obtain ⟨t1, t2⟩ := countDown_ts hd'
          have ht' : (countDown s).1.ts[t]? = some .idle := by rw [t1]; exact ht
          have hz : (q.set (q.count - 1)).count ≠ 0 := by simp only [L.set, if_neg e]; exact e
          have := h1.enter false ht' hz
          rw [t2] at this
          refine follows_one (q' := { q with waiting := t :: q.waiting }.set (q.count - 1)) (by simp only [specNext, if_neg h0]) ?_
          simpa [L.set, e, t2] using this
    · cases hs
  | reset t n =>
    simp only [step] at hs
    split at hs <;> cases hs
    have hn : n ≠ 0 := by rintro rfl; simp [Label.isResetToZero] at hl
    exact follows_one (q' := { q with count := n }) (by simp only [specNext, L.set, if_neg hn])
      ⟨rfl, fun h => absurd h hn, hR.nd, fun t p hp => ⟨(hR.all t p hp).idle, (hR.all t p hp).wa⟩⟩
  | resume t =>
    simp only [step] at hs
    split at hs
    · next k g ht =>
      have o := hR.all t _ ht
      have o2 := o.wa _ _ _ rfl
      split at hs <;> cases hs
      · next hg =>
        have hw : t ∉ q.waiting := fun h => hg (o2.1.mp h)
        have hr : t ∈ q.released := by
          rcases o.idle.mpr (by simp) with h | h
          · exact absurd h hw
          · exact h
        refine follows_one (q' := { q with released := q.released.erase t }) (by simp [specNext, hr]) ?_
        have := hR.leave ht
        rwa [List.erase_of_not_mem hw] at this
      · next hg =>
        simp only [ne_eq, Decidable.not_not] at hg
        exact hR.move ht ⟨by simpa using o.idle, by rintro k m g ⟨⟩; exact ⟨o2.1, o2.2.1, fun _ => hg⟩⟩
    · next k g ht =>
      have o := hR.all t _ ht
      have o2 := o.wa _ _ _ rfl
      split at hs <;> cases hs
      · next hg =>
        have hw : t ∉ q.waiting := fun h => hg (o2.1.mp h)
        have hr : t ∈ q.released := by
          rcases o.idle.mpr (by simp) with h | h
          · exact absurd h hw
          · exact h
        refine follows_one (q' := { q with released := q.released.erase t }) (by simp [specNext, hr]) ?_
        have := hR.leave ht
        rwa [List.erase_of_not_mem hw] at this
      · next hg =>
        simp only [ne_eq, Decidable.not_not] at hg
        have hw := o2.1.mpr hg
        have hr : t ∉ q.released := fun h => (List.nodup_append.mp hR.nd).2.2 t hw t h rfl
        refine follows_one (q' := { q with waiting := q.waiting.erase t }) (by simp [specNext, hr, hw]) ?_
        have := hR.leave ht
        rwa [List.erase_of_not_mem hr] at this
    · cases hs
  | spurious t =>
    simp only [step] at hs
    split at hs <;> cases hs
    next k g ht =>
    have o := hR.all t _ ht
    have o2 := o.wa _ _ _ rfl
    exact hR.move ht ⟨by simpa using o.idle, by rintro k m g ⟨⟩; exact ⟨o2.1, o2.2.1, by simp⟩⟩
  | timeout t =>
    simp only [step] at hs
    split at hs <;> cases hs <;> next ht =>
    have o := hR.all t _ ht
    have o2 := o.wa _ _ _ rfl
    exact hR.move ht ⟨by simpa using o.idle, by rintro k m g ⟨⟩; exact ⟨o2.1, o2.2.1, by simp⟩⟩
  | interrupt t =>
    simp only [step] at hs
    split at hs <;> cases hs
    next ht =>
    have o := hR.all t _ ht
    exact follows_one (by simp only [specNext]; rw [if_pos (o.idle.mpr (by simp))]) (hR.leave ht)

end Verif.Latch
