import Verif.TimedLock.Many
import Verif.TimedLock.Lemmas
import Verif.TimedLock.Props
/-!
# C70 with any number of threads
-/

set_option linter.unusedSimpArgs false

namespace Verif.TimedLock

/-- What `R` says of the thread. -/
structure T (c : Cfg) (q : Spec) (p : PC) : Prop where
  pos : 0 ≤ q.began
  beg : q.began ≤ q.now
  hi : q.user ≤ q.maxUser
  lo : q.minUser ≤ q.user
  ok : Ok c q p

structure RM (c : Cfg) (s : Many) (q : MSpec) : Prop where
  now : q.now = s.now
  user : q.user = s.user
  owner : q.owner = s.owner
  depth : q.depth = s.depth
  free : q.owner = none ↔ q.depth = 0
  each : ∀ t, T c (q.of t) (s.pc t)

variable {c : Cfg} {s s' : Many} {q : MSpec}

theorem RM.view (h : RM c s q) (t : Nat) : R c (s.view t) (q.of t) where
  now := h.now
  user := h.user
  mine := by simp [MSpec.of, Many.view, h.owner, h.depth]
  other := by simp [MSpec.of, Many.view, h.owner]
  pos := (h.each t).pos
  beg := (h.each t).beg
  hi := (h.each t).hi
  lo := (h.each t).lo
  excl := fun hm => by
    by_cases ho : q.owner = some t
    · simp [MSpec.of, ho]
    · simp [MSpec.of, ho] at hm
  ok := (h.each t).ok

/-- Another thread takes or leaves the mutex. -/
theorem T.otherwise {q1 q2 : Spec} {p : PC} (h : T c q1 p) (he : q2 = { q1 with other := q2.other }) : T c q2 p := by
  rw [he]
  exact { h with ok := h.ok.tick rfl rfl rfl (Int.le_refl _) (Int.le_refl _) (Int.le_refl _) }

theorem own_event {l : Label} {s s1 : State} {es : List Event} (hl : l.isOwn = true) (hs : step c s l = some (s1, es)) :
    es = [] ∨ (∃ a, es = [.called a]) ∨ (∃ r, es = [.returned r]) ∨ es = [.unlocked] := by
  have hret : ∀ {r : Ret}, ret s r = some (s1, es) → es = [] ∨ (∃ a, es = [.called a]) ∨ (∃ r, es = [.returned r]) ∨ es = [.unlocked] := fun h => by
    cases h; exact .inr (.inr (.inl ⟨_, rfl⟩))
  have hgoto : ∀ {p : PC}, goto s p = some (s1, es) → es = [] ∨ (∃ a, es = [.called a]) ∨ (∃ r, es = [.returned r]) ∨ es = [.unlocked] := fun h => by
    cases h; exact .inl rfl
  have htake : take s = some (s1, es) → es = [] ∨ (∃ a, es = [.called a]) ∨ (∃ r, es = [.returned r]) ∨ es = [.unlocked] := fun h => by
    cases h; exact .inr (.inr (.inl ⟨_, rfl⟩))
  cases l with
  | call a => simp only [step] at hs; split at hs <;> cases hs; exact .inr (.inl ⟨_, rfl⟩)
  | unlock => simp only [step] at hs; split at hs <;> cases hs; exact .inr (.inr (.inr rfl))
  | wake => simp only [step] at hs; split at hs; exact hgoto hs; cases hs
  | expire => simp only [step] at hs; (repeat' split at hs) <;> first | exact hgoto hs | cases hs
  | go =>
    simp only [step, go, start, fail] at hs
    (repeat' split at hs) <;> first | exact hgoto hs | exact hret hs | exact htake hs | (cases hs; done) | (cases hs; exact .inr (.inr (.inl ⟨_, rfl⟩)))
  | _ => cases hl

theorem of_own {t : Nat} (h : q.owner = some t) : (q.of t).mine = q.depth := by simp [MSpec.of, h]

theorem mine_owner {t : Nat} (h : (q.of t).mine ≠ 0) : q.owner = some t := by
  by_cases ho : q.owner = some t
  · exact ho
  · simp [MSpec.of, ho] at h

/-- The step of thread `t` is one of the specification. -/
theorem own_sim {t : Nat} {l : Label} {s1 : State} {es : List Event} (h : RM c s q) (hl : l.isOwn = true) (hs : step c (s.view t) l = some (s1, es)) :
    Follows (mnext false c) (RM c (s.put t s1)) q (es.map (.own t)) := by
  have hv := h.view t
  have F := sim hv hs
  have hmine : (s.view t).mine = (q.of t).mine := hv.mine.symm
  have hfree := h.free
  rcases own_event hl hs with rfl | ⟨a, rfl⟩ | ⟨r, rfl⟩ | rfl
  · -- no event
    have F : R c s1 (q.of t) := F
    have e : s1.mine = (s.view t).mine := F.mine.symm.trans hv.mine
    refine { now := h.now, user := h.user, owner := ?_, depth := ?_, free := hfree, each := fun u => ?_ }
    · simp only [Many.put, if_pos e]; exact h.owner
    · simp only [Many.put, if_pos e]; exact h.depth
    · by_cases hu : u = t
      · subst hu; simp only [Many.put, if_true]; exact ⟨F.pos, F.beg, F.hi, F.lo, F.ok⟩
      · simp only [Many.put, if_neg hu]; exact h.each u
  · -- called
    by_cases hu : q.owner = some t ∧ c.recursive = false
    · simp [Follows, mnext, hu]
    · have hu' : ¬ ((q.of t).mine ≠ 0 ∧ c.recursive = false) := fun hx => hu ⟨mine_owner hx.1, hx.2⟩
      cases hc : (q.calls t).call with
      | some b =>
        have hc' : (q.of t).call = some b := hc
        simp [Follows, next, hu', check, hc'] at F
      | none =>
        have hc' : (q.of t).call = none := hc
        simp only [Follows, next, if_neg hu', check, hc', Option.isNone_none, if_true] at F
        have e : s1.mine = (s.view t).mine := F.mine.symm.trans hv.mine
        simp only [List.map_cons, List.map_nil, Follows, mnext, if_neg hu, hc, if_true]
        refine { now := h.now, user := h.user, owner := ?_, depth := ?_, free := hfree, each := fun u => ?_ }
        · simp only [Many.put, if_pos e]; exact h.owner
        · simp only [Many.put, if_pos e]; exact h.depth
        · by_cases hu : u = t
          · subst hu
            have e2 : MSpec.of { q with calls := fun v => if v = u then { call := some a, began := q.now, maxUser := q.user, minUser := q.user } else q.calls v } u =
                { q.of u with call := some a, began := (q.of u).now, maxUser := (q.of u).user, minUser := (q.of u).user } := by simp [MSpec.of]
            simp only [Many.put, if_true, e2]
            exact ⟨F.pos, F.beg, F.hi, F.lo, F.ok⟩
          · simp only [Many.put, if_neg hu]
            exact (h.each u).otherwise (by simp [MSpec.of, hu])
  · -- returned
    cases hc : (q.calls t).call with
    | none =>
      have hc' : (q.of t).call = none := hc
      simp [Follows, next, hc'] at F
    | some a =>
      have hc' : (q.of t).call = some a := hc
      simp only [Follows, next, hc'] at F
      simp only [List.map_cons, List.map_nil, Follows, mnext, hc]
      cases r with
      | val b =>
        cases b with
        | true =>
          cases ho : (q.of t).other with
          | true => simp [check, ho] at F
          | false =>
            simp only [check, ho, Bool.not_false, if_true] at F
            have hown : q.owner = none ∨ q.owner = some t := by
              simp only [MSpec.of, decide_eq_false_iff_not] at ho
              by_cases h1 : q.owner = none
              · exact .inl h1
              · by_cases h2 : q.owner = some t
                · exact .inr h2
                · exact absurd ⟨h1, h2⟩ ho
            rw [if_pos hown]
            have hd : (q.of t).mine = q.depth := by
              rcases hown with h1 | h1
              · simp [MSpec.of, h1, hfree.mp h1]
              · exact of_own h1
            have hm1 : s1.mine = q.depth + 1 := by rw [← F.mine, hd]
            have e : ¬ s1.mine = (s.view t).mine := by rw [hm1, hmine, hd]; omega
            have e0 : ¬ s1.mine = 0 := by rw [hm1]; omega
            refine { now := h.now, user := h.user, owner := ?_, depth := ?_, free := by simp, each := fun u => ?_ }
            · simp only [Many.put, if_neg e, if_neg e0]
            · simp only [Many.put, if_neg e]; exact hm1.symm
            · by_cases hu : u = t
              · subst hu
                have e2 : MSpec.of { q with owner := some u, depth := q.depth + 1, calls := q.ends u } u = { q.of u with mine := (q.of u).mine + 1, other := false, call := none } := by
                  rw [hd]; simp [MSpec.of, MSpec.ends]
                simp only [Many.put, if_true, e2]
                refine ⟨F.pos, F.beg, F.hi, F.lo, F.ok.tick rfl rfl rfl (Int.le_refl _) (Int.le_refl _) (Int.le_refl _)⟩
              · have hu2 : t ≠ u := fun hx => hu hx.symm
                have hz : (q.of u).mine = 0 := by
                  rcases hown with h1 | h1 <;> simp [MSpec.of, h1, hu2]
                simp only [Many.put, if_neg hu]
                refine (h.each u).otherwise ?_
                simp only [MSpec.of] at hz
                simp [MSpec.of, MSpec.ends, hu, hu2, hz]
        | false =>
          cases hd : (q.of t).due a with
          | false => simp [check, hd] at F
          | true =>
            by_cases hm : (q.of t).mine = 0
            · have hno : q.owner ≠ some t := fun hx => by
                rw [of_own hx] at hm
                rw [hfree.mpr hm] at hx
                cases hx
              simp only [check, hd, hm, beq_self_eq_true, Bool.and_self, if_true] at F
              dsimp only
              rw [if_pos ⟨rfl, hno⟩]
              have e : s1.mine = (s.view t).mine := by rw [hmine, hm, ← F.mine]
              refine { now := h.now, user := h.user, owner := ?_, depth := ?_, free := hfree, each := fun u => ?_ }
              · simp only [Many.put, if_pos e]; exact h.owner
              · simp only [Many.put, if_pos e]; exact h.depth
              · by_cases hu : u = t
                · subst hu
                  have e2 : MSpec.of { q with calls := q.ends u } u = { q.of u with call := none } := by simp [MSpec.of, MSpec.ends]
                  simp only [Many.put, if_true, e2, hm]
                  exact ⟨F.pos, F.beg, F.hi, F.lo, F.ok⟩
                · simp only [Many.put, if_neg hu]
                  exact (h.each u).otherwise (by simp [MSpec.of, MSpec.ends, hu])
            · simp [check, hm] at F
      | overflow => cases hx : (q.of t).extreme c a <;> simp_all
      | aborted => cases hx : (q.of t).extreme c a <;> simp_all
  · -- unlocked
    by_cases ho : q.owner = some t
    · have hd0 : q.depth ≠ 0 := fun hx => by rw [hfree.mpr hx] at ho; cases ho
      have hm : (q.of t).mine ≠ 0 := by rw [of_own ho]; exact hd0
      simp only [Follows, next, if_neg hm] at F
      simp only [List.map_cons, List.map_nil, Follows, mnext, if_pos ho]
      have hm1 : s1.mine = q.depth - 1 := by rw [← F.mine, of_own ho]
      have e : ¬ s1.mine = (s.view t).mine := by rw [hm1, hmine, of_own ho]; omega
      refine { now := h.now, user := h.user, owner := ?_, depth := ?_, free := ?_, each := fun u => ?_ }
      · simp only [Many.put, if_neg e]
        by_cases h1 : q.depth ≤ 1
        · rw [if_pos h1, if_pos (by omega)]
        · rw [if_neg h1, if_neg (by omega)]
      · simp only [Many.put, if_neg e]; exact hm1.symm
      · by_cases h1 : q.depth ≤ 1
        · simp only [if_pos h1, true_iff]; omega
        · simp only [if_neg h1]
          constructor
          · intro hx; cases hx
          · intro hx; omega
      · by_cases hu : u = t
        · subst hu
          have e2 : MSpec.of { q with owner := if q.depth ≤ 1 then none else some u, depth := q.depth - 1 } u = { q.of u with mine := (q.of u).mine - 1, other := false } := by
            by_cases h1 : q.depth ≤ 1
            · have : q.depth - 1 = 0 := by omega
              simp [MSpec.of, ho, h1, this]
            · simp [MSpec.of, ho, h1]
          simp only [Many.put, if_true, e2]
          exact ⟨F.pos, F.beg, F.hi, F.lo, F.ok.tick rfl rfl rfl (Int.le_refl _) (Int.le_refl _) (Int.le_refl _)⟩
        · have hu2 : t ≠ u := fun hx => hu hx.symm
          simp only [Many.put, if_neg hu]
          refine (h.each u).otherwise ?_
          by_cases h1 : q.depth ≤ 1 <;> simp [MSpec.of, ho, h1, hu2]
    · simp [Follows, mnext, ho]

theorem msim {l : MLabel} {es : List MEvent} (h : RM c s q) (hs : mstep c s l = some (s', es)) : Follows (mnext false c) (RM c s') q es := by
  cases l with
  | own t l =>
    simp only [mstep] at hs
    split at hs
    · next hg =>
      split at hs
      · next s1 es1 h1 => cases hs; exact own_sim h hg.1 h1
      · cases hs
    · cases hs
  | tick dn user =>
    simp only [mstep] at hs
    split at hs
    · cases hs
      simp only [Follows, mnext]
      refine { now := rfl, user := rfl, owner := h.owner, depth := h.depth, free := h.free, each := fun t => ?_ }
      have := sim (h.view t) (l := .tick dn user) (s' := { s.view t with now := s.now + dn, user := user }) rfl
      simp only [Follows, next] at this
      exact ⟨this.pos, this.beg, this.hi, this.lo, this.ok⟩
    · cases hs

theorem minit_rel {now user : Int} (h0 : 0 ≤ now) : RM c (minit now user) (mspecInit now user) where
  now := rfl
  user := rfl
  owner := rfl
  depth := rfl
  free := by simp [mspecInit]
  each := fun _ => ⟨h0, Int.le_refl _, Int.le_refl _, Int.le_refl _, rfl⟩

/-- **C70 for any number of threads.** However the clocks run and are set and the threads are scheduled and woken: a timed attempt to lock returns true only when no other thread has the mutex, and false only
when the thread does not have it and the time of the call has come.

Missing from the full statement (`mnext true`): a call with times that are negative or do not fit in 64 bits may abort or have undefined behaviour; `mnext false` allows exactly this. -/
theorem many_threads_conform_partial {now user : Int} {ls : List MLabel} {es : List MEvent} (h0 : 0 ≤ now) (h : run (mstep c) (minit now user) ls = some (s, es)) :
    Accepts (mnext false c) (mspecInit now user) es :=
  simulation (s := minit now user) (RM c) (fun _ _ _ _ _ hR hs => msim hR hs) (minit_rel h0) h

def MEvent.failed : MEvent → Bool
  | .own _ e => TimedLock.failed e
  | _ => false

theorem maccepts_strict {es : List MEvent} (hf : es.all (fun e => !e.failed) = true) (h : Accepts (mnext false c) q es) : Accepts (mnext true c) q es := by
  induction es generalizing q with
  | nil => trivial
  | cons e es ih =>
    simp only [List.all_cons, Bool.and_eq_true] at hf
    have he : mnext true c q e = mnext false c q e := by
      cases e with
      | clock n u => rfl
      | own t e =>
        cases e with
        | returned r => cases r with
          | val b => cases b <;> rfl
          | _ => simp [MEvent.failed, TimedLock.failed] at hf
        | _ => rfl
    simp only [Accepts] at h ⊢
    rw [he]
    cases hn : mnext false c q e with
    | ok q' => simp only [hn] at h ⊢; exact ih hf.2 h
    | undefined => trivial
    | illegal => simp [hn] at h

/-- **C70 for any number of threads.** The full statement for every history in which no call aborts or overflows. -/
theorem many_threads_conform_if_no_failure {now user : Int} {ls : List MLabel} {es : List MEvent} (h0 : 0 ≤ now) (h : run (mstep c) (minit now user) ls = some (s, es))
    (hf : es.all (fun e => !e.failed) = true) : Accepts (mnext true c) (mspecInit now user) es :=
  maccepts_strict hf (many_threads_conform_partial h0 h)

/-! ## Progress -/

theorem view_excl {t : Nat} (h : (s.view t).mine ≠ 0) : (s.view t).other = false := by
  by_cases ho : s.owner = some t
  · simp [Many.view, ho]
  · simp [Many.view, ho] at h

/-- What a thread does itself changes neither the clocks nor, except for itself, the owner. -/
theorem own_keeps {l : Label} {s s1 : State} {es : List Event} (hl : l.isOwn = true) (hx : s.mine ≠ 0 → s.other = false) (hs : step c s l = some (s1, es)) :
    s1.now = s.now ∧ s1.user = s.user ∧ s1.other = s.other ∧ (s1.mine ≠ s.mine → s.other = false) := by
  have hret : ∀ {r : Ret}, ret s r = some (s1, es) → s1.now = s.now ∧ s1.user = s.user ∧ s1.other = s.other ∧ (s1.mine ≠ s.mine → s.other = false) := fun h => by
    cases h; exact ⟨rfl, rfl, rfl, fun h => absurd rfl h⟩
  have hgoto : ∀ {p : PC}, goto s p = some (s1, es) → s1.now = s.now ∧ s1.user = s.user ∧ s1.other = s.other ∧ (s1.mine ≠ s.mine → s.other = false) := fun h => by
    cases h; exact ⟨rfl, rfl, rfl, fun h => absurd rfl h⟩
  have htake : s.other = false → take s = some (s1, es) → s1.now = s.now ∧ s1.user = s.user ∧ s1.other = s.other ∧ (s1.mine ≠ s.mine → s.other = false) := fun ho h => by
    cases h; exact ⟨rfl, rfl, rfl, fun _ => ho⟩
  have hlk : s.locked = false → s.other = false := fun h => by simp only [State.locked, Bool.or_eq_false_iff] at h; exact h.1
  cases l with
  | call a => simp only [step] at hs; split at hs <;> cases hs; exact ⟨rfl, rfl, rfl, fun h => absurd rfl h⟩
  | unlock =>
    simp only [step] at hs
    split at hs <;> cases hs
    next hp => exact ⟨rfl, rfl, rfl, fun _ => hx (by omega)⟩
  | wake => simp only [step] at hs; split at hs; exact hgoto hs; cases hs
  | expire => simp only [step] at hs; (repeat' split at hs) <;> first | exact hgoto hs | cases hs
  | go =>
    simp only [step, go, start, fail] at hs
    (repeat' split at hs) <;> first
      | exact hgoto hs
      | exact hret hs
      | (cases hs; done)
      | (cases hs; exact ⟨rfl, rfl, rfl, fun h => absurd rfl h⟩)
      | (next hm => exact htake (hx hm.1) hs)
      | (next hl => exact htake (hlk (by simpa using hl)) hs)
      | (next hl => exact htake (hl.elim (fun h => hx h.1) hlk) hs)
  | _ => cases hl

theorem put_view {t : Nat} {s1 : State} (hn : s1.now = s.now) (hu : s1.user = s.user) (ho : s1.other = (s.view t).other) (hm : s1.mine ≠ (s.view t).mine → (s.view t).other = false) :
    (s.put t s1).view t = s1 := by
  obtain ⟨pc, now, user, mine, other⟩ := s1
  simp only at hn hu ho hm
  subst hn hu
  by_cases he : mine = (s.view t).mine
  · subst he ho
    simp [Many.put, Many.view]
  · have h1 := hm he
    rw [h1] at ho
    subst ho
    by_cases hz : mine = 0
    · simp only [Many.put, if_neg he, if_pos hz]
      simp [Many.view, hz]
    · simp only [Many.put, if_neg he, if_neg hz]
      simp [Many.view]

/-- A thread whose steps are all done, or that nothing more can be done with. -/
theorem spin_none {l : Label} {s : State} (hl : l.isOwn = true) (hp : s.pc = .spin ∨ s.pc = .dead) : step c s l = none := by
  cases l with
  | call a => rcases hp with hp | hp <;> simp [step, hp]
  | unlock => rcases hp with hp | hp <;> simp [step, hp]
  | wake => rcases hp with hp | hp <;> simp [step, hp]
  | expire => rcases hp with hp | hp <;> simp [step, hp]
  | go => rcases hp with hp | hp <;> simp [step, go, hp]
  | _ => cases hl

/-- What a thread can do by itself it can do among others. -/
theorem alone {t : Nat} {ls : List Label} {s1 : State} {es : List Event} (hl : ∀ l ∈ ls, l.isOwn = true) (hd : s.dead = false) (hk : s.stuck = false) (h : run (step c) (s.view t) ls = some (s1, es)) :
    ∃ s', run (mstep c) s (ls.map (.own t)) = some (s', es.map (.own t)) ∧ s'.view t = s1 ∧ (∀ u, u ≠ t → s'.pc u = s.pc u) := by
  induction ls generalizing s es with
  | nil => cases h; exact ⟨s, rfl, rfl, fun _ _ => rfl⟩
  | cons l ls ih =>
    obtain ⟨m, e1, e2, h1, h2, rfl⟩ := run_cons h
    have hl1 := hl l List.mem_cons_self
    obtain ⟨k1, k2, k3, k4⟩ := own_keeps hl1 view_excl h1
    have hv : (s.put t m).view t = m := put_view k1 k2 k3 k4
    have hstep : mstep c s (.own t l) = some (s.put t m, e1.map (.own t)) := by simp [mstep, hl1, hd, hk, h1]
    by_cases hp : m.pc = .spin ∨ m.pc = .dead
    · cases ls with
      | nil =>
        cases h2
        exact ⟨_, by simp [run, hstep], hv, fun u hu => by simp [Many.put, hu]⟩
      | cons l2 ls =>
        obtain ⟨_, _, _, h3, _, _⟩ := run_cons h2
        rw [spin_none (hl l2 (by simp)) hp] at h3
        cases h3
    · have hp1 : m.pc ≠ .spin := fun hx => hp (.inl hx)
      have hp2 : m.pc ≠ .dead := fun hx => hp (.inr hx)
      obtain ⟨s', hr, hv', ho⟩ := ih (s := s.put t m) (es := e2) (fun l' hl' => hl l' (List.mem_cons_of_mem _ hl')) (by simp [Many.put, hd, hp2]) (by simp [Many.put, hk, hp1]) (by rw [hv]; exact h2)
      refine ⟨s', ?_, hv', fun u hu => (ho u hu).trans (by simp [Many.put, hu])⟩
      rw [List.map_cons, List.map_append]
      exact run_step hstep hr

/-- **C70 for any number of threads (progress).** A thread whose wait has timed out, and whose time has come, returns by its own steps alone, wherever the others are. -/
theorem returns_among_others {t : Nat} {ts : Int} {k : Kont} (hd : s.dead = false) (hk : s.stuck = false) (h : s.pc t = .asleep (some ts) k) (hle : ts ≤ s.now) (ht : timeHasCome (s.view t) k) :
    ∃ n s' b, run (mstep c) s (.own t .expire :: List.replicate n (.own t .go)) = some (s', [.own t (.returned (.val b))]) ∧ (∀ u, u ≠ t → s.owner = some u → b = false) := by
  obtain ⟨n, s1, b, hr, hb⟩ := returns_when_time_has_come (c := c) (s := s.view t) h hle ht
  obtain ⟨s', hr', -, -⟩ := alone (by simp only [List.mem_cons, List.mem_replicate]; rintro l (rfl | ⟨-, rfl⟩) <;> rfl) hd hk hr
  refine ⟨n, s', b, by simpa using hr', fun u hu ho => hb ?_⟩
  simp [State.locked, Many.view, ho, hu]

/-- **C70 for any number of threads (progress).** A sleeping thread that is woken while nobody has the mutex gets it. -/
theorem woken_among_others {t : Nat} {ts : Option Int} {k : Kont} (hd : s.dead = false) (hk : s.stuck = false) (h : s.pc t = .asleep ts k) (ho : s.owner = none) :
    ∃ s', run (mstep c) s [.own t .wake, .own t .go] = some (s', [.own t (.returned (.val true))]) ∧ s'.owner = some t := by
  obtain ⟨s1, hr, hm⟩ := woken_while_free_locks (c := c) (s := s.view t) h (by simp [State.locked, Many.view, ho])
  obtain ⟨s', hr', hv, -⟩ := alone (by simp only [List.mem_cons, List.not_mem_nil]; rintro l (rfl | rfl | h) <;> first | rfl | cases h) hd hk hr
  refine ⟨s', by simpa using hr', ?_⟩
  subst hv
  by_cases hx : s'.owner = some t
  · exact hx
  · simp [Many.view, hx] at hm

/-! ## A time before the machine was booted -/

def MEvent.moves : MEvent → Bool
  | .own _ (.returned (.val true)) | .own _ .unlocked => true
  | _ => false

theorem stuck_step {l : MLabel} {es : List MEvent} (hk : s.stuck = true) (h : mstep c s l = some (s', es)) : s'.stuck = true ∧ s'.owner = s.owner ∧ es.all (fun e => !e.moves) = true := by
  cases l with
  | tick dn user => simp only [mstep] at h; split at h <;> cases h; exact ⟨hk, rfl, rfl⟩
  | own t l =>
    simp only [mstep] at h
    split at h
    · next hg =>
      obtain ⟨hl, -, hn⟩ := hg
      simp only [hk, Bool.true_and] at hn
      split at h
      · next s1 e1 h1 =>
        cases h
        have key : s1.mine = (s.view t).mine ∧ (e1.map (MEvent.own t)).all (fun e => !e.moves) = true := by
          have hret : ∀ {r : Ret}, r ≠ .val true → ret (s.view t) r = some (s1, e1) → s1.mine = (s.view t).mine ∧ (e1.map (MEvent.own t)).all (fun e => !e.moves) = true := fun hr h => by
            cases h
            rename_i r
            cases r with
            | val b => cases b <;> first | exact ⟨rfl, rfl⟩ | exact absurd rfl hr
            | _ => exact ⟨rfl, rfl⟩
          have hgoto : ∀ {p : PC}, goto (s.view t) p = some (s1, e1) → s1.mine = (s.view t).mine ∧ (e1.map (MEvent.own t)).all (fun e => !e.moves) = true := fun h => by
            cases h; exact ⟨rfl, rfl⟩
          cases l with
          | call a => simp only [step] at h1; split at h1 <;> cases h1; exact ⟨rfl, rfl⟩
          | go =>
            have hp : (s.view t).pc = s.pc t := rfl
            simp only [Many.needs] at hn
            simp only [step, go, hp] at h1
            split at h1
            · cases h1
            · simp only [start] at h1
              (repeat' split at h1) <;> first | exact hgoto h1 | exact hret (by decide) h1 | cases h1
            · (repeat' split at h1) <;> first | exact hgoto h1 | exact hret (by decide) h1 | cases h1
            · next he => rw [he] at hn; cases hn
            · cases h1
            · next he => rw [he] at hn; cases hn
            · (repeat' split at h1) <;> first | exact hgoto h1 | exact hret (by decide) h1 | cases h1
            · cases h1
            · cases h1
            · next he => rw [he] at hn; cases hn
            · (repeat' split at h1) <;> first | exact hgoto h1 | exact hret (by decide) h1 | cases h1
            · exact hgoto h1
          | unlock => cases hn
          | wake => cases hn
          | expire => cases hn
          | _ => cases hl
        exact ⟨by simp [Many.put, hk], by simp only [Many.put, if_pos key.1], key.2⟩
      · cases h
    · cases h

/-- Once a thread spins, nobody ever locks or unlocks the mutex again, whoever tries to and however long. -/
theorem stuck_for_everybody {ls : List MLabel} {es : List MEvent} (hk : s.stuck = true) (h : run (mstep c) s ls = some (s', es)) : s'.stuck = true ∧ s'.owner = s.owner ∧ es.all (fun e => !e.moves) = true := by
  induction ls generalizing s es with
  | nil => cases h; exact ⟨hk, rfl, rfl⟩
  | cons l ls ih =>
    obtain ⟨m, e1, e2, h1, h2, rfl⟩ := run_cons h
    obtain ⟨k1, k2, k3⟩ := stuck_step hk h1
    obtain ⟨j1, j2, j3⟩ := ih k1 h2
    exact ⟨j1, j2.trans k2, by rw [List.all_append, k3, j3]; rfl⟩

/-- A thread has the mutex; another tries to lock it until a time before the machine was booted: the mutex is lost for everybody, its owner included. -/
theorem past_time_stops_everybody : ∃ ls s, run (mstep posix) (minit 50 60) ls = some (s, [.own 0 (.called (.for_ 5)), .own 0 (.returned (.val true)), .own 1 (.called (.until_ true (-1)))]) ∧ s.owner = some 0 ∧
    ∀ ls' s' es, run (mstep posix) s ls' = some (s', es) → s'.owner = some 0 ∧ es.all (fun e => !e.moves) = true := by
  refine ⟨[.own 0 (.call (.for_ 5)), .own 0 .go, .own 0 .go, .own 1 (.call (.until_ true (-1))), .own 1 .go, .own 1 .go], _, rfl, rfl, fun ls' s' es h => ?_⟩
  exact (stuck_for_everybody rfl h).2

/-! ## The theorems speak about something -/

/-- Thread 0 has the mutex; 1 waits for 10 ns, 2 until time 1000 of a clock that is adjusted; 1 gives up in time, 0 unlocks, 2 is woken and gets it, 1 tries again for ever; 2 unlocks and 1 gets it. -/
def crowd : List MLabel :=
  [.own 0 (.call (.for_ 0)), .own 0 .go, .own 0 .go, .own 1 (.call (.for_ 10)), .own 1 .go, .own 2 (.call (.until_ false 1000)), .own 2 .go, .own 1 .go, .own 2 .go, .own 2 .go, .tick 10 70, .own 1 .expire,
   .own 1 .go, .own 0 .unlock, .own 2 .wake, .own 1 (.call .forever), .own 1 .go, .own 2 .go, .own 1 .go, .own 2 .unlock, .own 1 .wake, .own 1 .go]

def crowdEvents : List MEvent :=
  [.own 0 (.called (.for_ 0)), .own 0 (.returned (.val true)), .own 1 (.called (.for_ 10)), .own 2 (.called (.until_ false 1000)), .clock 60 70, .own 1 (.returned (.val false)), .own 0 .unlocked,
   .own 1 (.called .forever), .own 2 (.returned (.val true)), .own 2 .unlocked, .own 1 (.returned (.val true))]

example : (run (mstep posix) (minit 50 60) crowd).map (·.2) = some crowdEvents := by decide +kernel
example : ClientOk (mnext true posix) (mspecInit 50 60) crowdEvents := by decide +kernel
/-- The hypotheses of the theorems on progress are met on the way. -/
example : ((run (mstep posix) (minit 50 60) (crowd.take 11)).map fun r => (r.1.pc 1, r.1.now, r.1.owner, r.1.stuck, r.1.dead)) = some (.asleep (some 60) .report, 60, some 0, false, false) := by decide +kernel
example : ((run (mstep posix) (minit 50 60) (crowd.take 14)).map fun r => (r.1.pc 2, r.1.owner, r.1.stuck, r.1.dead)) = some (.asleep (some 990) (.loop 1000), none, false, false) := by decide +kernel

/-- Two owners, a failure before its time, a failure of the owner of a recursive mutex, an unlock that leaves the mutex to another thread too early. -/
example : ¬ Accepts (mnext false posix) (mspecInit 50 60) [.own 0 (.called (.for_ 0)), .own 1 (.called (.for_ 0)), .own 0 (.returned (.val true)), .own 1 (.returned (.val true))] := by decide +kernel
example : ¬ Accepts (mnext false posix) (mspecInit 50 60) [.own 0 (.called (.for_ 0)), .own 0 (.returned (.val true)), .own 1 (.called (.for_ 7)), .clock 56 90, .own 1 (.returned (.val false))] := by decide +kernel
example : ¬ Accepts (mnext false { posix with recursive := true }) (mspecInit 50 60)
    [.own 0 (.called (.for_ 0)), .own 0 (.returned (.val true)), .own 0 (.called (.for_ 0)), .own 0 (.returned (.val true)), .own 0 .unlocked, .own 1 (.called (.for_ 0)), .own 1 (.returned (.val true))] := by
  decide +kernel

end Verif.TimedLock
