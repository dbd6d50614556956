import Verif.TimedJoin.Model
/-! # Timed joins and their deadlines: the simulation -/

set_option linter.unusedSimpArgs false

namespace Verif.TimedJoin

/-- What is known of the call while it has the continuation `k`. -/
def KOk (a : Call) : Kont → Prop
  | .report => True
  | .loop t => a = .until_ false t

/-- What is known of the time of a wait. -/
def TOk (q : Spec) (a : Call) (ts : Int) : Kont → Prop
  | .report => a = .until_ true ts ∨ ∃ d, a = .for_ d ∧ q.began + d ≤ ts ∧ fits ts = true
  | .loop t => (q.began + (t - q.maxUser) ≤ ts ∨ 0 ≤ ts) ∧ fits ts = true

def TsOk (q : Spec) (a : Call) (k : Kont) : Option Int → Prop
  | some ts => TOk q a ts k
  | none => True

def Ok (c : Sys) (q : Spec) : PC → Prop
  | .idle => q.call = none
  | .begin a => q.call = some a
  | .addNow d k => ∃ a t u, q.call = some a ∧ KOk a k ∧ k = .loop t ∧ q.minUser ≤ u ∧ u ≤ q.maxUser ∧ d = min (t - u) interval
  | .enter ts k => ∃ a, q.call = some a ∧ KOk a k ∧ TsOk q a k ts
  | .asleep ts k => ∃ a, q.call = some a ∧ KOk a k ∧ TsOk q a k ts ∧ (c = .posix → q.before = false)
  | .expired k => ∃ a, q.call = some a ∧ KOk a k ∧ q.before = false ∧ (k = .report → q.due a = true)
  | .readUser t => ∃ a, q.call = some a ∧ KOk a (.loop t) ∧ q.before = false
  | .joining => ∃ a, q.call = some a
  | .waitJoined => ∃ a, q.call = some a

structure R (c : Sys) (s : State) (q : Spec) : Prop where
  now : q.now = s.now
  user : q.user = s.user
  ended : q.ended = s.done
  gone : q.gone = s.gone
  asked : q.asked = s.asked
  pos : 0 ≤ q.began
  beg : q.began ≤ q.now
  hi : q.user ≤ q.maxUser
  lo : q.minUser ≤ q.user
  posix : c = .posix → q.before = true → q.ended = true
  win : c = .windows → q.before = true → q.gone = true
  joined : s.joined = true → s.gone = true
  ok : Ok c q s.pc

variable {c : Sys} {s s' : State} {q : Spec}

theorem validTs_of_nonneg {x : Int} (h : 0 ≤ x) : validTs x = true := by
  have e : x.tdiv 1000000000 = x / 1000000000 := Int.tdiv_eq_ediv_of_nonneg h
  simp only [validTs, e, decide_eq_true_eq]
  omega

theorem neg_of_not_validTs {x : Int} (h : ¬ validTs x = true) : x < 0 := by
  by_cases h0 : 0 ≤ x
  · exact absurd (validTs_of_nonneg h0) h
  · omega

theorem sim_goto {p : PC} {es : List Event} (h : R c s q) (hs : goto s p = some (s', es)) (hok : Ok c q p) : Follows (next false c) (R c s') q es := by
  cases hs
  exact { h with ok := hok }

theorem sim_done {a : Call} {es : List Event} (h : R c s q) (hs : done s = some (s', es)) (hc : q.call = some a) (hg : s.gone = true) : Follows (next false c) (R c s') q es := by
  cases hs
  have : q.gone = true := h.gone.trans hg
  simp only [Follows, next, hc, check, this, if_true]
  exact { h with ok := rfl, gone := by simp [hg], win := fun _ _ => rfl }

theorem sim_false {a : Call} {es : List Event} (h : R c s q) (hs : ret s (.val false) = some (s', es)) (hc : q.call = some a) (hb : q.before = false) (hd : q.due a = true) :
    Follows (next false c) (R c s') q es := by
  cases hs
  simp only [Follows, next, hc, check, hb, hd, Bool.not_false, Bool.and_self, if_true]
  exact { h with ok := rfl, posix := by simp [hb], win := by simp [hb] }

theorem sim_fail {a : Call} {r : Ret} {es : List Event} (hr : r = .overflow ∨ r = .threw) (hs : ret s r = some (s', es)) (hc : q.call = some a) (hx : q.extreme c a = true) :
    Follows (next false c) (R c s') q es := by
  cases hs
  rcases hr with rfl | rfl <;> simp [Follows, next, hc, hx]

theorem not_fits {x : Int} (h : ¬ fits x = true) : x < -9223372036854775808 ∨ 9223372036854775807 < x := by
  simp only [fits, decide_eq_true_eq] at h
  omega

theorem fits_iff {x : Int} : fits x = true ↔ -9223372036854775808 ≤ x ∧ x ≤ 9223372036854775807 := by simp [fits]

theorem fits_false {x : Int} : fits x = false ↔ ¬ (-9223372036854775808 ≤ x ∧ x ≤ 9223372036854775807) := by simp [fits]

theorem sim_claim {a : Call} {es : List Event} (h : R c s q) (hs : claim s = some (s', es)) (hc : q.call = some a) : Follows (next false c) (R c s') q es := by
  simp only [claim] at hs
  split at hs
  · cases hs; exact { h with ok := ⟨a, hc⟩ }
  · split at hs
    · next hj => exact sim_done h hs hc (h.joined hj)
    · exact sim_goto h hs ⟨a, hc⟩

theorem sim_failed {a : Call} {k : Kont} {es : List Event} (h : R c s q) (hs : fail s k = some (s', es)) (hc : q.call = some a) (hk : KOk a k) (hb : q.before = false) (hd : k = .report → q.due a = true) :
    Follows (next false c) (R c s') q es := by
  cases k with
  | report => exact sim_false h hs hc hb (hd rfl)
  | loop t => exact sim_goto h hs ⟨a, hc, hk, hb⟩

theorem start_follows {a : Call} {es : List Event} (h : R c s q) (hp : s.pc = .begin a) (hs : start s a = some (s', es)) : Follows (next false c) (R c s') q es := by
  have hc := h.ok
  rw [hp] at hc
  simp only [Ok] at hc
  have h1 := h.now; have h2 := h.user; have h3 := h.hi; have h4 := h.lo; have h5 := h.beg; have h6 := h.pos
  cases a with
  | until_ st t =>
    cases st with
    | true => exact sim_goto h hs ⟨_, hc, trivial, .inl rfl⟩
    | false =>
      simp only [start] at hs
      split at hs
      · exact sim_goto h hs ⟨_, t, s.user, hc, rfl, rfl, by omega, by omega, rfl⟩
      · next hf =>
        refine sim_fail (.inl rfl) hs hc ?_
        have := not_fits hf
        simp only [Spec.extreme, Bool.or_eq_true, Bool.not_eq_true', fits_false]
        left; left; omega
  | for_ d =>
    simp only [start] at hs
    split at hs
    · next hf => exact sim_goto h hs ⟨_, hc, trivial, .inr ⟨d, rfl, by omega, hf⟩⟩
    · next hf =>
      refine sim_fail (.inl rfl) hs hc ?_
      have := not_fits hf
      simp only [Spec.extreme, Bool.or_eq_true, Bool.not_eq_true', fits_false]
      left; left; left; omega
  | join => exact sim_goto h hs ⟨_, hc, trivial, trivial⟩

theorem go_follows {es : List Event} (h : R c s q) (hs : go c s = some (s', es)) : Follows (next false c) (R c s') q es := by
  have hok := h.ok
  have h1 := h.now; have h2 := h.user; have h3 := h.hi; have h4 := h.lo; have h5 := h.beg; have h6 := h.pos
  cases hp : s.pc with
  | idle => simp only [go, hp] at hs; cases hs
  | begin a => simp only [go, hp] at hs; exact start_follows h hp hs
  | addNow d k =>
    simp only [go, hp] at hs
    rw [hp] at hok
    obtain ⟨a, t, u, hc, hk, rfl, hu1, hu2, hd⟩ := hok
    split at hs
    · next hf =>
      refine sim_goto h hs ⟨a, hc, hk, ?_, hf⟩
      simp only [interval] at hd
      omega
    · next hf =>
      refine sim_fail (.inl rfl) hs hc ?_
      have := not_fits hf
      cases hk
      simp only [Spec.extreme, Bool.or_eq_true, Bool.not_eq_true', fits_false, decide_eq_true_eq]
      simp only [interval] at hd ⊢
      omega
  | enter ts k =>
    simp only [go, hp] at hs
    rw [hp] at hok
    obtain ⟨a, hc, hk, ht⟩ := hok
    cases c with
    | posix =>
      simp only at hs
      split at hs
      · exact sim_claim h hs hc
      · next hd =>
        have hb : q.before = false := by
          cases hb : q.before with
          | false => rfl
          | true => exact absurd (h.ended.symm.trans (h.posix rfl hb)) hd
        cases ts with
        | none => exact sim_goto h hs ⟨a, hc, hk, trivial, fun _ => hb⟩
        | some ts =>
          simp only at hs
          split at hs
          · exact sim_goto h hs ⟨a, hc, hk, ht, fun _ => hb⟩
          · next hv =>
            have hneg := neg_of_not_validTs hv
            refine sim_fail (.inr rfl) hs hc ?_
            simp only [TsOk] at ht
            cases k with
            | report =>
              rcases ht with rfl | ⟨d, rfl, hd, -⟩
              · simp [Spec.extreme, hneg]
              · have : q.began + d < 0 := by omega
                simp [Spec.extreme, this]
            | loop t =>
              cases hk
              simp only [TOk] at ht
              have : q.began + (t - q.maxUser) < 0 := by omega
              simp [Spec.extreme, this]
    | windows =>
      simp only at hs
      cases ts with
      | none => exact sim_goto h hs ⟨a, hc, hk, trivial, fun hx => by cases hx⟩
      | some ts =>
        simp only at hs
        split at hs
        · exact sim_goto h hs ⟨a, hc, hk, trivial, fun hx => by cases hx⟩
        · split at hs
          · exact sim_goto h hs ⟨a, hc, hk, ht, fun hx => by cases hx⟩
          · next hf =>
            have hf := not_fits hf
            refine sim_fail (.inl rfl) hs hc ?_
            simp only [TsOk] at ht
            cases k with
            | report =>
              rcases ht with rfl | ⟨d, rfl, hd, hft⟩
              · simp only [Spec.extreme, if_true, Bool.or_eq_true, Bool.not_eq_true', fits_false]; omega
              · rw [fits_iff] at hft
                simp only [Spec.extreme, beq_self_eq_true, Bool.true_and, Bool.or_eq_true, Bool.not_eq_true', fits_false]
                right; omega
            | loop t =>
              cases hk
              simp only [TOk, fits_iff] at ht
              simp only [Spec.extreme, Bool.or_eq_true, Bool.not_eq_true', fits_false, decide_eq_true_eq, interval]
              omega
  | asleep ts k => simp only [go, hp] at hs; cases hs
  | expired k =>
    simp only [go, hp] at hs
    rw [hp] at hok
    obtain ⟨a, hc, hk, hb, hd⟩ := hok
    split at hs
    · exact sim_claim h hs hc
    · exact sim_failed h hs hc hk hb hd
  | joining =>
    simp only [go, hp] at hs
    rw [hp] at hok
    obtain ⟨a, hc⟩ := hok
    split at hs
    · next hg =>
      cases hs
      have : q.gone = true := h.gone.trans hg
      simp only [Follows, next, hc, check, this, if_true]
      exact { h with ok := rfl, gone := by simp [hg], win := fun _ _ => rfl, joined := fun _ => hg }
    · cases hs
  | waitJoined =>
    simp only [go, hp] at hs
    rw [hp] at hok
    obtain ⟨a, hc⟩ := hok
    split at hs
    · next hj => exact sim_done h hs hc (h.joined hj)
    · cases hs
  | readUser t =>
    simp only [go, hp] at hs
    rw [hp] at hok
    obtain ⟨a, hc, hk, hb⟩ := hok
    cases hk
    split at hs
    · split at hs
      · refine sim_false h hs hc hb ?_
        simp only [Spec.due, decide_eq_true_eq]; omega
      · exact sim_goto h hs ⟨_, t, s.user, hc, rfl, rfl, by omega, by omega, rfl⟩
    · next hf =>
      refine sim_fail (.inl rfl) hs hc ?_
      have := not_fits hf
      simp only [Spec.extreme, Bool.or_eq_true, Bool.not_eq_true', fits_false]
      left; left; omega

theorem TsOk.tick {a : Call} {k : Kont} {ts : Option Int} {q' : Spec} (h : TsOk q a k ts) (hb : q'.began = q.began) (hm : q.maxUser ≤ q'.maxUser) : TsOk q' a k ts := by
  cases ts with
  | none => trivial
  | some ts =>
    cases k with
    | report => simp only [TsOk, TOk, hb] at h ⊢; exact h
    | loop t =>
      simp only [TsOk, TOk, hb] at h ⊢
      exact ⟨by omega, h.2⟩

theorem due_tick {a : Call} {q' : Spec} (h : q.due a = true) (hb : q'.began = q.began) (hn : q.now ≤ q'.now) (hm : q.maxUser ≤ q'.maxUser) : q'.due a = true := by
  cases a with
  | until_ st t => cases st <;> simp only [Spec.due, decide_eq_true_eq] at h ⊢ <;> omega
  | for_ d => simp only [Spec.due, decide_eq_true_eq, hb] at h ⊢; omega
  | join => cases h

theorem Ok.tick {p : PC} {q' : Spec} (h : Ok c q p) (hc : q'.call = q.call) (hbf : q'.before = q.before) (hb : q'.began = q.began) (hn : q.now ≤ q'.now) (hm : q.maxUser ≤ q'.maxUser)
    (hl : q'.minUser ≤ q.minUser) : Ok c q' p := by
  cases p with
  | idle => exact hc.trans h
  | begin a => exact hc.trans h
  | addNow d k =>
    obtain ⟨a, t, u, h1, h2, h3, h4, h5, h6⟩ := h
    exact ⟨a, t, u, hc.trans h1, h2, h3, by omega, by omega, h6⟩
  | enter ts k => obtain ⟨a, h1, h2, h3⟩ := h; exact ⟨a, hc.trans h1, h2, h3.tick hb hm⟩
  | asleep ts k => obtain ⟨a, h1, h2, h3, h4⟩ := h; exact ⟨a, hc.trans h1, h2, h3.tick hb hm, fun hx => hbf.trans (h4 hx)⟩
  | expired k => obtain ⟨a, h1, h2, h3, h4⟩ := h; exact ⟨a, hc.trans h1, h2, hbf.trans h3, fun hx => due_tick (h4 hx) hb hn hm⟩
  | readUser t => obtain ⟨a, h1, h2, h3⟩ := h; exact ⟨a, hc.trans h1, h2, hbf.trans h3⟩
  | joining => obtain ⟨a, h1⟩ := h; exact ⟨a, hc.trans h1⟩
  | waitJoined => obtain ⟨a, h1⟩ := h; exact ⟨a, hc.trans h1⟩

theorem sim {l : Label} {es : List Event} (h : R c s q) (hs : step c s l = some (s', es)) : Follows (next false c) (R c s') q es := by
  have hok := h.ok
  have h1 := h.now; have h2 := h.user; have h3 := h.hi; have h4 := h.lo; have h5 := h.beg; have h6 := h.pos
  cases l with
  | call a =>
    simp only [step] at hs
    split at hs
    · next hp =>
      cases hs
      rw [hp.1] at hok
      have hc : q.call = none := hok
      simp only [Follows, next, check, hc, Option.isNone_none, if_true]
      refine { h with pos := by simp only; omega, beg := by simp, hi := by simp, lo := by simp, posix := ?_, win := ?_, ok := rfl }
      · rintro rfl hb; simpa using hb
      · rintro rfl hb; simpa using hb
    · cases hs
  | go => exact go_follows h hs
  | tick dn u =>
    cases hs
    simp only [Follows, next]
    exact { h with now := rfl, user := rfl, beg := by simp only; omega, hi := by simp only; omega, lo := by simp only; omega,
                   ok := hok.tick rfl rfl rfl (by simp only; omega) (by simp only; omega) (by simp only; omega) }
  | finish =>
    simp only [step] at hs
    split at hs <;> cases hs
    simp only [Follows, next]
    exact { h with ended := rfl, posix := fun _ _ => rfl, ok := hok.tick rfl rfl rfl (Int.le_refl _) (Int.le_refl _) (Int.le_refl _) }
  | vanish =>
    simp only [step] at hs
    split at hs
    · next hd =>
      cases hs
      have : q.ended = true := h.ended.trans hd.1
      simp only [Follows, next, check, this, if_true]
      exact { h with ended := by simp [hd.1], gone := rfl, posix := fun _ _ => rfl, win := fun _ _ => rfl, joined := fun _ => rfl,
                     ok := hok.tick rfl rfl rfl (Int.le_refl _) (Int.le_refl _) (Int.le_refl _) }
    · cases hs
  | wake =>
    simp only [step] at hs
    split at hs
    · next ts k hp =>
      rw [hp] at hok
      obtain ⟨a, hc, hk, ht, hb⟩ := hok
      split at hs
      · exact sim_goto h hs ⟨a, hc, hk, ht⟩
      · split at hs
        · next hg => exact sim_done h hs hc hg
        · cases hs
    · cases hs
  | expire =>
    simp only [step] at hs
    split at hs
    · next ts k hp =>
      rw [hp] at hok
      obtain ⟨a, hc, hk, ht, hb⟩ := hok
      split at hs
      · next hle =>
        have hd : k = .report → q.due a = true := by
          rintro rfl
          rcases ht with rfl | ⟨d, rfl, hd, -⟩ <;> simp only [Spec.due, decide_eq_true_eq] <;> omega
        split at hs
        · exact sim_goto h hs ⟨a, hc, hk, hb rfl, hd⟩
        · split at hs
          · cases hs
          · next hg =>
            refine sim_failed h hs hc hk ?_ hd
            cases hbf : q.before with
            | false => rfl
            | true => exact absurd (h.gone.symm.trans (h.win rfl hbf)) hg
      · cases hs
    · cases hs
  | ask =>
    cases hs
    simp only [Follows, next]
    exact { h with asked := rfl, ok := hok.tick rfl rfl rfl (Int.le_refl _) (Int.le_refl _) (Int.le_refl _) }
  | notice =>
    have key : ∀ a, q.call = some a → (if s.asked = true then some (({ s with pc := .idle, asked := false } : State), [Event.returned .interrupted]) else none) = some (s', es) →
        Follows (next false c) (R c s') q es := fun a hc hs => by
      split at hs
      · next ha =>
        cases hs
        have : q.asked = true := h.asked.trans ha
        simp only [Follows, next, hc, check, this, if_true]
        exact { h with asked := rfl, ok := rfl }
      · cases hs
    simp only [step] at hs
    split at hs
    · next hp => rw [hp] at hok; obtain ⟨a, hc, -⟩ := hok; exact key a hc hs
    · next hp => rw [hp] at hok; obtain ⟨a, hc⟩ := hok; exact key a hc hs
    · cases hs
  | otherStart => simp only [step] at hs; split at hs <;> cases hs; exact { h with }
  | otherJoined =>
    simp only [step] at hs
    split at hs
    · next hg => cases hs; exact { h with joined := fun _ => hg.2.2.1 }
    · cases hs

end Verif.TimedJoin
