import Verif.Barrier.Spec
/-! # Simulation and release invariant of the barrier -/

set_option linter.unusedSimpArgs false

namespace Verif.Barrier

/-- The generation a waiting thread arrived in. -/
def PC.gen? : PC → Option Nat
  | .asleep g => some g
  | .woken g => some g
  | _ => none

structure Ok (gen : Nat) (b : Bar) (t : Nat) (p : PC) : Prop where
  el : t ∈ b.elected ↔ p = .notifying
  wa : (t ∈ b.waiting ∨ t ∈ b.released) ↔ p.gen? ≠ none
  gn : t ∈ b.waiting → p.gen? = some gen

structure R (s : State) (b : Bar) : Prop where
  cnt : b.broken = false → b.arrived + s.count = b.size ∧ 1 ≤ s.count ∧ s.count < M
  nd : (b.waiting ++ b.released).Nodup
  nde : b.elected.Nodup
  ex : ∀ t ∈ b.elected, t < s.ts.length
  all : ∀ t p, s.ts[t]? = some p → Ok s.gen b t p

theorem R_init {size n : Nat} {f : Fct} {s : State} (h : construct size f n = some s) (hs : size < M) : R s (Bar.new size) := by
  simp only [construct] at h
  split at h <;> cases h
  refine ⟨by simp [Bar.new]; omega, by simp [Bar.new], by simp [Bar.new], by simp [Bar.new], ?_⟩
  intro t p hp
  have := List.eq_of_mem_replicate (List.mem_of_getElem? hp)
  subst this
  refine ⟨?_, ?_, ?_⟩ <;> simp [Bar.new, PC.gen?]

theorem Ok.wake {gen : Nat} {b : Bar} {t : Nat} {p : PC} (o : Ok gen b t p) : Ok gen b t p.wake := by
  obtain ⟨o1, o2, o3⟩ := o
  cases p <;> exact ⟨by simpa [PC.wake] using o1, by simpa [PC.wake, PC.gen?] using o2, by simpa [PC.wake, PC.gen?] using o3⟩

theorem follows_one {P : Bar → Prop} {q q' : Bar} {e : Event} (h : specNext q e = .ok q') (hp : P q') : Follows specNext P q [e] := by
  simp [Follows, h, hp]

/-- A thread that leaves without a generation of its own ending. -/
theorem leave {s : State} {b : Bar} {t : Nat} {p : PC} (hR : R s b) (ht : s.ts[t]? = some p) (hp : p.gen? ≠ none) :
    R { s with ts := s.ts.set t .idle } { b with waiting := b.waiting.erase t, released := b.released.erase t } := by
  obtain ⟨r1, r2, r3, rx, r4⟩ := hR
  obtain ⟨o1, o2, o3⟩ := r4 t p ht
  rw [List.nodup_append] at r2
  obtain ⟨n1, n2, n3⟩ := r2
  refine ⟨r1, ?_, r3, by simpa using rx, ?_⟩
  · rw [List.nodup_append]
    exact ⟨n1.erase t, n2.erase t, fun a ha c hc => n3 a (List.mem_of_mem_erase ha) c (List.mem_of_mem_erase hc)⟩
  · intro u q hq
    simp only [getElem?_set_eq ht] at hq
    split at hq
    · next hu =>
      cases hq; subst hu
      refine ⟨?_, ?_, ?_⟩
      · simp only [o1]; constructor
        · rintro rfl; simp [PC.gen?] at hp
        · intro h; cases h
      · simp [PC.gen?, n1.not_mem_erase, n2.not_mem_erase]
      · intro h; exact absurd h n1.not_mem_erase
    · next hu =>
      obtain ⟨p1, p2, p3⟩ := r4 u q hq
      refine ⟨p1, ?_, ?_⟩
      · simp only [List.mem_erase_of_ne (Ne.symm hu)]; exact p2
      · simp only [List.mem_erase_of_ne (Ne.symm hu)]; exact p3

theorem step_follows {s s' : State} {l : Label} {es : List Event} {b : Bar} (hR : R s b) (hs : step s l = some (s', es)) :
    Follows specNext (R s') b es := by
  have hR0 := hR
  obtain ⟨r1, r2, r3, rx, r4⟩ := hR
  cases l with
  | arrive t user =>
    simp only [step] at hs
    split at hs
    · next ht =>
      obtain ⟨o1, o2, o3⟩ := r4 t _ ht
      simp [PC.gen?] at o1 o2
      -- the arrival itself
      by_cases hb : b.broken = true
      · have : ∀ es', Follows specNext (R s') b (.arrived t :: es') := by intro es'; simp [Follows, specNext, hb]
        split at hs
        · split at hs
          · split at hs <;> cases hs; exact this _
          · cases hs; exact this _
        · cases hs; exact this _
      · simp only [Bool.not_eq_true] at hb
        obtain ⟨c1, c2, c3⟩ := r1 hb
        have harr : specNext b (.arrived t) = .ok { b with arrived := b.arrived + 1, waiting := t :: b.waiting } := by
          simp only [specNext, hb]; rw [if_neg (by simp), if_pos (by omega)]
        have hdec : dec s.count = s.count - 1 := by simp only [dec]; rw [if_neg (by omega)]
        split at hs
        · next hz =>
          have hc : b.arrived + 1 = b.size ∧ (t :: b.waiting).head? = some t := ⟨by omega, rfl⟩
          have hone : s.count = 1 := by omega
          -- what becomes of the other threads
          have hall : ∀ (g : Nat) (b' : Bar), b'.waiting = [] → b'.released = b.waiting ++ b.released → b'.elected = b.elected →
              ∀ u q, u ≠ t → s.ts[u]? = some q → Ok g b' u q := by
            intro g b' e1 e2 e3 u q hu hq
            obtain ⟨p1, p2, p3⟩ := r4 u q hq
            refine ⟨by rw [e3]; exact p1, ?_, by simp [e1]⟩
            rw [e1, e2, ← p2]; simp
          split at hs
          · next m hm =>
            split at hs <;> cases hs
            next hmM =>
            simp only [Follows, harr]
            simp only [specNext]
            rw [if_pos hc]
            by_cases hm0 : m = 0
            · simp [hm0]
            · simp only [hm0, if_false, List.tail_cons]
              refine ⟨?_, ?_, ?_, ?_, ?_⟩
              · intro _; exact ⟨by simp, by simp only; omega, hmM⟩
              · simpa using r2
              · exact List.nodup_cons.mpr ⟨o1, r3⟩
              · intro u hu
                simp only [List.length_set]
                rcases List.mem_cons.mp hu with rfl | hu
                · exact (List.getElem?_eq_some_iff.mp ht).1
                · exact rx u hu
              · intro u q hq
                simp only [getElem?_set_eq ht] at hq
                split at hq
                · next hu =>
                  cases hq; subst hu
                  refine ⟨by simp, ?_, by simp⟩
                  simp [PC.gen?, o2]
                · next hu =>
                  have := hall (inc s.gen) { b with waiting := [], released := b.waiting ++ b.released } rfl rfl rfl u q (Ne.symm hu) hq
                  exact ⟨by simp only [List.mem_cons, Ne.symm hu, false_or]; exact this.el, this.wa, this.gn⟩
          · cases hs
            simp only [Follows, harr]
            simp only [specNext]
            rw [if_pos hc]
            simp only [List.tail_cons]
            refine ⟨by simp, by simpa using r2, r3, rx, ?_⟩
            intro u q hq
            by_cases hu : u = t
            · subst hu
              rw [ht] at hq; cases hq
              refine ⟨by simp [o1], ?_, by simp⟩
              simp [PC.gen?, o2]
            · exact hall (inc s.gen) { b with arrived := b.arrived + 1, waiting := [], released := b.waiting ++ b.released, broken := true }
                rfl rfl rfl u q hu hq
        · next hz =>
          cases hs
          refine follows_one harr ⟨?_, ?_, r3, by simpa using rx, ?_⟩
          · intro _; simp only; omega
          · simp only [List.cons_append, List.nodup_cons, List.mem_append, not_or]; exact ⟨o2, r2⟩
          · intro u q hq
            simp only [getElem?_set_eq ht] at hq
            split at hq
            · next hu =>
              cases hq; subst hu
              exact ⟨by simp [o1], by simp [PC.gen?], by simp [PC.gen?]⟩
            · next hu =>
              obtain ⟨p1, p2, p3⟩ := r4 u q hq
              exact ⟨p1, by simp [Ne.symm hu, p2], by simpa [Ne.symm hu] using p3⟩
    · cases hs
  | notify t =>
    simp only [step] at hs
    split at hs
    · next ht =>
      cases hs
      obtain ⟨o1, o2, o3⟩ := r4 t _ ht
      have hm : (s.ts.map PC.wake)[t]? = some .notifying := by simp [ht, PC.wake]
      refine follows_one (q' := { b with elected := b.elected.erase t }) (by simp [specNext, o1.mpr rfl]) ⟨r1, r2, r3.erase t,
        fun u hu => by simpa using rx u (List.mem_of_mem_erase hu), ?_⟩
      intro u q hq
      simp only [getElem?_set_eq hm] at hq
      split at hq
      · next hu =>
        cases hq; subst hu
        exact ⟨by simp [r3.not_mem_erase], by simpa [PC.gen?] using o2, by simpa [PC.gen?] using o3⟩
      · next hu =>
        simp only [List.getElem?_map, Option.map_eq_some_iff] at hq
        obtain ⟨y, hy, rfl⟩ := hq
        obtain ⟨p1, p2, p3⟩ := (r4 u y hy).wake
        exact ⟨by simp only [List.mem_erase_of_ne (Ne.symm hu)]; exact p1, p2, p3⟩
    · cases hs
  | resume t =>
    simp only [step] at hs
    split at hs
    · next g ht =>
      obtain ⟨o1, o2, o3⟩ := r4 t _ ht
      split at hs <;> cases hs
      · next hg =>
        refine ⟨r1, r2, r3, by simpa using rx, ?_⟩
        intro u q hq
        simp only [getElem?_set_eq ht] at hq
        split at hq
        · next hu =>
          cases hq; subst hu
          exact ⟨by simpa using o1, by simpa [PC.gen?] using o2, by simpa [PC.gen?] using o3⟩
        · exact r4 u q hq
      · next hg =>
        have hnw : t ∉ b.waiting := fun hc => hg (by have := o3 hc; simpa [PC.gen?] using this)
        have hre : t ∈ b.released := by
          rcases o2.mpr (by simp [PC.gen?]) with h | h
          · exact absurd h hnw
          · exact h
        have := leave hR0 ht (by simp [PC.gen?])
        rw [List.erase_of_not_mem hnw] at this
        exact follows_one (q' := { b with released := b.released.erase t }) (by simp [specNext, hre]) this
    · cases hs
  | spurious t =>
    simp only [step] at hs
    split at hs
    · next g ht =>
      cases hs
      obtain ⟨o1, o2, o3⟩ := r4 t _ ht
      refine ⟨r1, r2, r3, by simpa using rx, ?_⟩
      intro u q hq
      simp only [getElem?_set_eq ht] at hq
      split at hq
      · next hu =>
        cases hq; subst hu
        exact ⟨by simpa using o1, by simpa [PC.gen?] using o2, by simpa [PC.gen?] using o3⟩
      · exact r4 u q hq
    · cases hs
  | interrupt t =>
    simp only [step] at hs
    split at hs
    · next g ht =>
      cases hs
      exact follows_one (by simp only [specNext]; rw [if_pos ((r4 t _ ht).wa.mpr (by simp [PC.gen?]))]) (leave hR0 ht (by simp [PC.gen?]))
    · next g ht =>
      cases hs
      exact follows_one (by simp only [specNext]; rw [if_pos ((r4 t _ ht).wa.mpr (by simp [PC.gen?]))]) (leave hR0 ht (by simp [PC.gen?]))
    · cases hs

/-! ## Release -/

def PC.isNotifying : PC → Bool
  | .notifying => true
  | _ => false

/-- `n` generations have ended. -/
structure Live (s : State) (b : Bar) (n : Nat) : Prop where
  gen : s.gen = n
  le : ∀ t p g, s.ts[t]? = some p → p.gen? = some g → g ≤ n ∧ (t ∈ b.released → g < n)
  wake : b.broken = false → (∃ t g, s.ts[t]? = some (.asleep g) ∧ t ∈ b.released) → 0 < cnt PC.isNotifying s.ts

theorem generations_append (a b : List Event) : generations (a ++ b) = generations a + generations b := by
  simp [generations, List.countP_append]

theorem Live.leave {s : State} {b b' : Bar} {t : Nat} {p q : PC} {n : Nat} (h : Live s b n) (ht : s.ts[t]? = some p)
    (hp : p ≠ .notifying) (hq : q ≠ .notifying) (hqa : ∀ g, q ≠ .asleep g) (hqg : ∀ g, q.gen? = some g → p.gen? = some g)
    (hb : b'.broken = b.broken) (hr : ∀ u, u ∈ b'.released → u ∈ b.released) :
    Live { s with ts := s.ts.set t q } b' n := by
  obtain ⟨h1, h2, h3⟩ := h
  refine ⟨h1, ?_, ?_⟩
  · intro u r g hr' hg
    simp only [getElem?_set_eq ht] at hr'
    split at hr'
    · next hu => cases hr'; subst hu; have := h2 t p g ht (hqg g hg); exact ⟨this.1, fun hm => this.2 (hr _ hm)⟩
    · have := h2 u r g hr' hg; exact ⟨this.1, fun hm => this.2 (hr _ hm)⟩
  · intro hbr ⟨u, g, hu, hm⟩
    have c := cnt_set PC.isNotifying q ht
    have e1 : p.isNotifying = false := by cases p <;> simp_all [PC.isNotifying]
    have e2 : q.isNotifying = false := by cases q <;> simp_all [PC.isNotifying]
    simp [e1, e2] at c
    simp only
    rw [c]
    simp only [getElem?_set_eq ht] at hu
    split at hu
    · exact absurd (Option.some.inj hu) (hqa g)
    · exact h3 (hb ▸ hbr) ⟨u, g, hu, hr _ hm⟩

theorem step_live {s s' : State} {l : Label} {es : List Event} {b b' : Bar} {n : Nat} (hR : R s b) (hL : Live s b n)
    (hs : step s l = some (s', es)) (hb : specState specNext b es = some b') (hn : n + generations es < M) :
    Live s' b' (n + generations es) := by
  have hL0 := hL
  obtain ⟨l1, l2, l3⟩ := hL
  cases l with
  | arrive t user =>
    simp only [step] at hs
    split at hs
    · next ht =>
      obtain ⟨o1, o2, o3⟩ := hR.all t _ ht
      simp [PC.gen?] at o1 o2
      by_cases hbr : b.broken = true
      · have : ∀ es', specState specNext b (.arrived t :: es') = none := by intro es'; simp [specState, specNext, hbr]
        split at hs
        · split at hs
          · split at hs <;> cases hs; rw [this] at hb; cases hb
          · cases hs; rw [this] at hb; cases hb
        · cases hs; rw [this] at hb; cases hb
      · simp only [Bool.not_eq_true] at hbr
        obtain ⟨c1, c2, c3⟩ := hR.cnt hbr
        have harr : specNext b (.arrived t) = .ok { b with arrived := b.arrived + 1, waiting := t :: b.waiting } := by
          simp only [specNext, hbr]; rw [if_neg (by simp), if_pos (by omega)]
        have hdec : dec s.count = s.count - 1 := by simp only [dec]; rw [if_neg (by omega)]
        split at hs
        · next hz =>
          have hc : b.arrived + 1 = b.size ∧ (t :: b.waiting).head? = some t := ⟨by omega, rfl⟩
          split at hs
          · next m hm =>
            split at hs <;> cases hs
            have hg1 : generations [Event.arrived t, .completed t m] = 1 := rfl
            rw [hg1] at hn ⊢
            simp only [specState, harr] at hb
            simp only [specNext] at hb
            rw [if_pos hc] at hb
            by_cases hm0 : m = 0
            · simp [hm0] at hb
            · simp only [hm0, if_false, List.tail_cons, Option.some.injEq] at hb
              subst hb
              refine ⟨?_, ?_, ?_⟩
              · simp only [inc, l1]; rw [if_neg (by omega)]
              · intro u q g hq hg
                simp only [getElem?_set_eq ht] at hq
                split at hq
                · cases hq; simp [PC.gen?] at hg
                · have := (l2 u q g hq hg).1; exact ⟨by omega, fun _ => by omega⟩
              · intro _ _
                have c := cnt_set PC.isNotifying PC.notifying ht
                simp [PC.isNotifying] at c
                simp only; omega
          · cases hs
            have hg1 : generations [Event.arrived t, .threw t] = 1 := rfl
            rw [hg1] at hn ⊢
            simp only [specState, harr] at hb
            simp only [specNext] at hb
            rw [if_pos hc] at hb
            simp only [Option.some.injEq] at hb
            subst hb
            refine ⟨?_, ?_, by simp⟩
            · simp only [inc, l1]; rw [if_neg (by omega)]
            · intro u q g hq hg
              have := (l2 u q g hq hg).1; exact ⟨by omega, fun _ => by omega⟩
        · cases hs
          simp only [specState, harr, Option.some.injEq] at hb
          subst hb
          have hg1 : generations [Event.arrived t] = 0 := rfl
          rw [hg1]
          refine ⟨l1, ?_, ?_⟩
          · intro u q g hq hg
            simp only [getElem?_set_eq ht] at hq
            split at hq
            · next hu => cases hq; subst hu; simp [PC.gen?] at hg; exact ⟨by omega, fun hm => absurd hm o2.2⟩
            · exact l2 u q g hq hg
          · intro hbr' ⟨u, g, hu, hm⟩
            have c := cnt_set PC.isNotifying (PC.asleep s.gen) ht
            simp [PC.isNotifying] at c
            simp only; rw [c]
            simp only [getElem?_set_eq ht] at hu
            split at hu
            · next he => subst he; exact absurd hm o2.2
            · exact l3 hbr' ⟨u, g, hu, hm⟩
    · cases hs
  | notify t =>
    simp only [step] at hs
    split at hs
    · next ht =>
      cases hs
      have hm : (s.ts.map PC.wake)[t]? = some .notifying := by simp [ht, PC.wake]
      simp only [specState, specNext] at hb
      by_cases he : t ∈ b.elected
      · simp only [he, if_true, Option.some.injEq] at hb
        subst hb
        have hg1 : generations [Event.returned t true] = 0 := rfl
        rw [hg1]
        refine ⟨l1, ?_, ?_⟩
        · intro u q g hq hg
          simp only [getElem?_set_eq hm] at hq
          split at hq
          · cases hq; simp [PC.gen?] at hg
          · simp only [List.getElem?_map, Option.map_eq_some_iff] at hq
            obtain ⟨y, hy, rfl⟩ := hq
            exact l2 u y g hy (by cases y <;> simp_all [PC.wake, PC.gen?])
        · intro _ ⟨u, g, hu, _⟩
          simp only [getElem?_set_eq hm] at hu
          split at hu
          · cases hu
          · simp only [List.getElem?_map, Option.map_eq_some_iff] at hu
            obtain ⟨y, hy, h⟩ := hu
            cases y <;> simp [PC.wake] at h
      · simp [he] at hb
    · cases hs
  | resume t =>
    simp only [step] at hs
    split at hs
    · next g ht =>
      split at hs <;> cases hs
      · next hg =>
        simp only [specState, Option.some.injEq] at hb
        subst hb
        have hg1 : generations ([] : List Event) = 0 := rfl
        rw [hg1]
        have hnr : t ∉ b.released := fun hc => by have := (l2 t _ g ht rfl).2 hc; omega
        refine ⟨l1, ?_, ?_⟩
        · intro u q g' hq hg'
          simp only [getElem?_set_eq ht] at hq
          split at hq
          · next hu => cases hq; subst hu; exact l2 t _ g' ht (by simpa [PC.gen?] using hg')
          · exact l2 u q g' hq hg'
        · intro hbr ⟨u, g', hu, hm⟩
          have c := cnt_set PC.isNotifying (PC.asleep g) ht
          simp [PC.isNotifying] at c
          simp only; rw [c]
          simp only [getElem?_set_eq ht] at hu
          split at hu
          · next he => subst he; exact absurd hm hnr
          · exact l3 hbr ⟨u, g', hu, hm⟩
      · have hg1 : generations [Event.returned t false] = 0 := rfl
        rw [hg1]
        simp only [specState, specNext] at hb
        by_cases hr : t ∈ b.released
        · simp only [hr, if_true, Option.some.injEq] at hb
          subst hb
          exact hL0.leave ht (by simp) (by simp) (by simp) (by simp [PC.gen?]) rfl (fun u hu => List.mem_of_mem_erase hu)
        · simp [hr] at hb
    · cases hs
  | spurious t =>
    simp only [step] at hs
    split at hs
    · next g ht =>
      cases hs
      simp only [specState, Option.some.injEq] at hb
      subst hb
      have hg1 : generations ([] : List Event) = 0 := rfl
      rw [hg1]
      exact hL0.leave ht (by simp) (by simp) (by simp) (by simp [PC.gen?]) rfl (fun u hu => hu)
    · cases hs
  | interrupt t =>
    have hi : es = [.interrupted t] ∧ s' = { s with ts := s.ts.set t .idle } ∧ ∃ p, s.ts[t]? = some p ∧ p ≠ .notifying := by
      simp only [step] at hs
      split at hs
      · next ht => cases hs; exact ⟨rfl, rfl, _, ht, by simp⟩
      · next ht => cases hs; exact ⟨rfl, rfl, _, ht, by simp⟩
      · cases hs
    obtain ⟨rfl, rfl, p, ht, hp⟩ := hi
    have hg1 : generations [Event.interrupted t] = 0 := rfl
    rw [hg1]
    simp only [specState, specNext] at hb
    by_cases hr : t ∈ b.waiting ∨ t ∈ b.released
    · simp only [hr, if_true, Option.some.injEq] at hb
      subst hb
      exact hL0.leave ht hp (by simp) (by simp) (by simp [PC.gen?]) rfl (fun u hu => List.mem_of_mem_erase hu)
    · simp [hr] at hb

/-- Everything about a run whose client keeps the contract. -/
def Inv (size : Nat) (s : State) (h : List Event) : Prop :=
  ∀ b, specState specNext (Bar.new size) h = some b → R s b ∧ (generations h < M → Live s b (generations h))

theorem inv_step (size : Nat) (s : State) (l : Label) (s' : State) (h es : List Event) (hi : Inv size s h)
    (hs : step s l = some (s', es)) : Inv size s' (h ++ es) := by
  intro b' hb'
  rw [specState_append] at hb'
  cases hb : specState specNext (Bar.new size) h with
  | none => rw [hb] at hb'; cases hb'
  | some b =>
    rw [hb] at hb'
    simp only [Option.bind_some] at hb'
    obtain ⟨hR, hL⟩ := hi b hb
    obtain ⟨m, hm, hm'⟩ := (step_follows hR hs).specState_append (es' := []) (by simpa using hb')
    simp only [specState, Option.some.injEq] at hm'
    subst hm'
    refine ⟨hm, fun hn => ?_⟩
    rw [generations_append] at hn ⊢
    exact step_live hR (hL (by omega)) hs hb' hn

end Verif.Barrier
