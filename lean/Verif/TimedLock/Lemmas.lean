import Verif.TimedLock.Model
/-! # Timed locks and their deadlines: the simulation -/

set_option linter.unusedSimpArgs false

namespace Verif.TimedLock

/-- What is known of the call while it has the continuation `k`. -/
def KOk (c : Cfg) (q : Spec) (a : Call) : Kont → Prop
  | .report => c.sys ≠ .windows
  | .loop t => c.sys ≠ .windows ∧ a = .until_ false t
  | .winUser t => c.sys = .windows ∧ a = .until_ false t
  | .winSteady t => c.sys = .windows ∧ (a = .until_ true t ∨ ∃ d, a = .for_ d ∧ q.began + d ≤ t ∧ t ≤ q.now + d ∧ fits t = true)

/-- What is known of the time of a wait. -/
def TOk (q : Spec) (a : Call) (ts : Int) : Kont → Prop
  | .report => a = .until_ true ts ∨ ∃ d, a = .for_ d ∧ q.began + d ≤ ts
  | .loop t => q.began + (t - q.maxUser) ≤ ts ∨ 0 ≤ ts
  | _ => True

def TsOk (q : Spec) (a : Call) (k : Kont) : Option Int → Prop
  | some ts => TOk q a ts k
  | none => k = .report → a = .forever

def Ok (c : Cfg) (q : Spec) : PC → Prop
  | .idle => q.call = none
  | .begin a => q.call = some a ∧ (q.mine ≠ 0 → c.recursive = true)
  | .addNow d k => ∃ a t u, q.call = some a ∧ (q.mine ≠ 0 → c.recursive = true) ∧ KOk c q a k ∧ k = .loop t ∧ q.minUser ≤ u ∧ u ≤ q.maxUser ∧ d = min (t - u) interval
  | .enter ts k => ∃ a, q.call = some a ∧ (q.mine ≠ 0 → c.recursive = true) ∧ KOk c q a k ∧ TsOk q a k ts ∧ c.sys ≠ .windows
  | .asleep ts k => ∃ a, q.call = some a ∧ q.mine = 0 ∧ KOk c q a k ∧ TsOk q a k ts
  | .expired k => ∃ a, q.call = some a ∧ q.mine = 0 ∧ KOk c q a k ∧ (k = .report → q.due a = true)
  | .readUser t => ∃ a, q.call = some a ∧ q.mine = 0 ∧ KOk c q a (.loop t)
  | .spin => True
  | .dead => False
  | .winTry k => ∃ a, q.call = some a ∧ (q.mine ≠ 0 → c.recursive = true) ∧ KOk c q a k ∧ k.isWin = true
  | .winRead k => ∃ a, q.call = some a ∧ q.mine = 0 ∧ KOk c q a k ∧ k.isWin = true
  | .winWait _ k => ∃ a, q.call = some a ∧ q.mine = 0 ∧ KOk c q a k ∧ k.isWin = true

structure R (c : Cfg) (s : State) (q : Spec) : Prop where
  now : q.now = s.now
  user : q.user = s.user
  mine : q.mine = s.mine
  other : q.other = s.other
  pos : 0 ≤ q.began
  beg : q.began ≤ q.now
  hi : q.user ≤ q.maxUser
  lo : q.minUser ≤ q.user
  excl : q.mine ≠ 0 → q.other = false
  ok : Ok c q s.pc

variable {c : Cfg} {s s' : State} {q : Spec}

theorem validTs_of_nonneg {x : Int} (h : 0 ≤ x) : validTs x = true := by
  have e : x.tdiv 1000000000 = x / 1000000000 := Int.tdiv_eq_ediv_of_nonneg h
  simp only [validTs, e, decide_eq_true_eq]
  omega

theorem neg_of_not_validTs {x : Int} (h : ¬ validTs x = true) : x < 0 := by
  by_cases h0 : 0 ≤ x
  · exact absurd (validTs_of_nonneg h0) h
  · omega

theorem follows_nil {P : Spec → Prop} {n : Spec → Event → Verdict Spec} (h : P q) : Follows n P q [] := h

/-- A step without event. -/
theorem sim_goto {p : PC} {es : List Event} (h : R c s q) (hs : goto s p = some (s', es)) (hok : Ok c q p) : Follows (next false c) (R c s') q es := by
  simp only [goto, Option.some.injEq, Prod.mk.injEq] at hs
  obtain ⟨rfl, rfl⟩ := hs
  exact { h with ok := hok }

theorem sim_take {a : Call} {es : List Event} (h : R c s q) (hs : take s = some (s', es)) (hc : q.call = some a) (ho : q.other = false) :
    Follows (next false c) (R c s') q es := by
  simp only [take, Option.some.injEq, Prod.mk.injEq] at hs
  obtain ⟨rfl, rfl⟩ := hs
  simp only [Follows, next, hc, check, ho, Bool.not_false, if_true]
  exact { h with mine := by simp [h.mine], ok := rfl, excl := fun _ => by simp [ho], other := by simp [← h.other, ho] }

theorem sim_false {a : Call} {es : List Event} (h : R c s q) (hs : ret s (.val false) = some (s', es)) (hc : q.call = some a) (hm : q.mine = 0) (hd : q.due a = true) :
    Follows (next false c) (R c s') q es := by
  simp only [ret, Option.some.injEq, Prod.mk.injEq] at hs
  obtain ⟨rfl, rfl⟩ := hs
  simp only [Follows, next, hc, check, hm, hd, beq_self_eq_true, Bool.and_self, if_true]
  exact { h with ok := rfl, mine := by simp [← h.mine, hm], excl := by simp [hm] }

theorem sim_fail {a : Call} {r : Ret} {es : List Event} (hr : r = .overflow ∨ r = .aborted) (hs : es = [.returned r]) (hc : q.call = some a) (hx : q.extreme c a = true) :
    Follows (next false c) (R c s') q es := by
  subst hs
  rcases hr with rfl | rfl <;> simp [Follows, next, hc, hx]

theorem ret_events {r : Ret} {es : List Event} (hs : ret s r = some (s', es)) : es = [.returned r] := by
  simp only [ret, Option.some.injEq, Prod.mk.injEq] at hs
  exact hs.2.symm

theorem not_fits {x : Int} (h : ¬ fits x = true) : x < -9223372036854775808 ∨ 9223372036854775807 < x := by
  simp only [fits, decide_eq_true_eq] at h
  omega

theorem fits_iff {x : Int} : fits x = true ↔ -9223372036854775808 ≤ x ∧ x ≤ 9223372036854775807 := by simp [fits]

theorem fits_false {x : Int} : fits x = false ↔ ¬ (-9223372036854775808 ≤ x ∧ x ≤ 9223372036854775807) := by simp [fits]

theorem not_locked (h : R c s q) (hl : s.locked = false) : q.other = false := by
  simp only [State.locked, Bool.or_eq_false_iff] at hl
  rw [h.other]; exact hl.1

theorem start_follows {a : Call} {es : List Event} (h : R c s q) (hp : s.pc = .begin a) (hs : start c s a = some (s', es)) : Follows (next false c) (R c s') q es := by
  have hok := h.ok
  rw [hp] at hok
  obtain ⟨hc, hm⟩ := hok
  have h1 := h.now; have h2 := h.user; have h3 := h.hi; have h4 := h.lo; have h5 := h.beg; have h6 := h.pos
  cases hsys : c.sys with
  | posix asr =>
    cases a with
    | until_ st t =>
      cases st with
      | true =>
        simp only [start, hsys] at hs
        exact sim_goto h hs ⟨_, hc, hm, by simp [KOk, hsys], .inl rfl, by simp [hsys]⟩
      | false =>
        simp only [start, hsys] at hs
        split at hs
        · exact sim_goto h hs ⟨_, t, s.user, hc, hm, by simp [KOk, hsys], rfl, by omega, by omega, rfl⟩
        · next hf =>
          refine sim_fail (.inl rfl) (ret_events hs) hc ?_
          have := not_fits hf
          simp only [Spec.extreme, Bool.or_eq_true, Bool.not_eq_true', fits_false]
          left; omega
    | for_ d =>
      simp only [start, hsys] at hs
      split at hs
      · exact sim_goto h hs ⟨_, hc, hm, by simp [KOk, hsys], .inr ⟨d, rfl, by omega⟩, by simp [hsys]⟩
      · next hf =>
        refine sim_fail (.inl rfl) (ret_events hs) hc ?_
        have := not_fits hf
        simp only [Spec.extreme, Bool.or_eq_true, Bool.not_eq_true', fits_false]
        left; left; left; omega
    | forever =>
      simp only [start, hsys] at hs
      exact sim_goto h hs ⟨_, hc, hm, by simp [KOk, hsys], fun _ => rfl, by simp [hsys]⟩
  | windows =>
    cases a with
    | until_ st t =>
      cases st with
      | true =>
        simp only [start, hsys] at hs
        exact sim_goto h hs ⟨_, hc, hm, ⟨hsys, .inl rfl⟩, rfl⟩
      | false =>
        simp only [start, hsys] at hs
        exact sim_goto h hs ⟨_, hc, hm, ⟨hsys, rfl⟩, rfl⟩
    | for_ d =>
      simp only [start, hsys] at hs
      split at hs
      · next hf => exact sim_goto h hs ⟨_, hc, hm, ⟨hsys, .inr ⟨d, rfl, by omega, by omega, hf⟩⟩, rfl⟩
      · next hf =>
        refine sim_fail (.inl rfl) (ret_events hs) hc ?_
        have := not_fits hf
        simp only [Spec.extreme, Bool.or_eq_true, Bool.not_eq_true', fits_false]
        left; left; left; omega
    | forever => simp only [start, hsys] at hs; cases hs

theorem go_follows {es : List Event} (h : R c s q) (hs : go c s = some (s', es)) : Follows (next false c) (R c s') q es := by
  have hok := h.ok
  have h1 := h.now; have h2 := h.user; have h3 := h.hi; have h4 := h.lo; have h5 := h.beg; have h6 := h.pos
  cases hp : s.pc with
  | idle => simp only [go, hp] at hs; cases hs
  | begin a => simp only [go, hp] at hs; exact start_follows h hp hs
  | addNow d k =>
    simp only [go, hp] at hs
    rw [hp] at hok
    obtain ⟨a, t, u, hc, hm, hk, rfl, hu1, hu2, hd⟩ := hok
    split at hs
    · refine sim_goto h hs ⟨a, hc, hm, hk, ?_, hk.1⟩
      simp only [TsOk, TOk]
      simp only [interval] at hd
      omega
    · next hf =>
      refine sim_fail (.inl rfl) (ret_events hs) hc ?_
      have := not_fits hf
      obtain ⟨hk1, rfl⟩ := hk
      have : (c.sys != .windows) = true := by simpa using hk1
      simp only [Spec.extreme, this, Bool.true_and, Bool.or_eq_true, Bool.not_eq_true', fits_false, decide_eq_true_eq]
      simp only [interval] at hd ⊢
      right; omega
  | enter ts k =>
    simp only [go, hp] at hs
    rw [hp] at hok
    obtain ⟨a, hc, hm, hk, ht, hw⟩ := hok
    split at hs
    · next hr => exact sim_take h hs hc (h.excl (by rw [h.mine]; exact hr.1))
    · next hr =>
      have hm0 : q.mine = 0 := Decidable.byContradiction fun hx => hr ⟨by rw [← h.mine]; exact hx, hm hx⟩
      split at hs
      · cases ts with
        | none => exact sim_goto h hs ⟨a, hc, hm0, hk, ht⟩
        | some ts =>
          simp only at hs
          split at hs
          · exact sim_goto h hs ⟨a, hc, hm0, hk, ht⟩
          · next hv =>
            have hneg := neg_of_not_validTs hv
            split at hs
            · simp only [Option.some.injEq, Prod.mk.injEq] at hs
              refine sim_fail (.inr rfl) hs.2.symm hc ?_
              simp only [TsOk] at ht
              have hw' : (c.sys != .windows) = true := by simpa using hw
              cases k with
              | report =>
                rcases ht with rfl | ⟨d, rfl, hd⟩
                · simp [Spec.extreme, hw, hneg]
                · have : q.began + d < 0 := by omega
                  simp [Spec.extreme, hw', this]
              | loop t =>
                obtain ⟨_, rfl⟩ := hk
                simp only [TOk] at ht
                have : q.began + (t - q.maxUser) < 0 := by omega
                simp [Spec.extreme, hw', this]
              | winSteady t => exact absurd hk.1 hw
              | winUser t => exact absurd hk.1 hw
            · exact sim_goto h hs trivial
      · next hl => exact sim_take h hs hc (not_locked h (by simpa using hl))
  | asleep ts k => simp only [go, hp] at hs; cases hs
  | expired k =>
    simp only [go, hp] at hs
    rw [hp] at hok
    obtain ⟨a, hc, hm, hk, hd⟩ := hok
    split at hs
    · cases k with
      | report => exact sim_false h hs hc hm (hd rfl)
      | loop t => exact sim_goto h hs ⟨a, hc, hm, hk⟩
      | winSteady t => cases hs
      | winUser t => cases hs
    · next hl => exact sim_take h hs hc (not_locked h (by simpa using hl))
  | readUser t =>
    simp only [go, hp] at hs
    rw [hp] at hok
    obtain ⟨a, hc, hm, hk⟩ := hok
    obtain ⟨hk1, rfl⟩ := hk
    split at hs
    · split at hs
      · refine sim_false h hs hc hm ?_
        simp only [Spec.due, decide_eq_true_eq]; omega
      · exact sim_goto h hs ⟨_, t, s.user, hc, fun hx => absurd hm hx, ⟨hk1, rfl⟩, rfl, by omega, by omega, rfl⟩
    · next hf =>
      refine sim_fail (.inl rfl) (ret_events hs) hc ?_
      have := not_fits hf
      simp only [Spec.extreme, Bool.or_eq_true, Bool.not_eq_true', fits_false]
      left; omega
  | spin => simp only [go, hp] at hs; cases hs
  | dead => rw [hp] at hok; exact hok.elim
  | winTry k =>
    simp only [go, hp] at hs
    rw [hp] at hok
    obtain ⟨a, hc, hm, hk, hw⟩ := hok
    split at hs
    · next hx =>
      refine sim_take h hs hc ?_
      rcases hx with hx | hx
      · exact h.excl (by rw [h.mine]; exact hx.1)
      · exact not_locked h hx
    · next hx =>
      refine sim_goto h hs ⟨a, hc, ?_, hk, hw⟩
      exact Decidable.byContradiction fun hy => hx (.inl ⟨by rw [← h.mine]; exact hy, hm hy⟩)
  | winRead k =>
    simp only [go, hp] at hs
    rw [hp] at hok
    obtain ⟨a, hc, hm, hk, hw⟩ := hok
    split at hs
    · split at hs
      · next hle =>
        refine sim_false h hs hc hm ?_
        cases k with
        | report => cases hw
        | loop t => cases hw
        | winSteady t =>
          simp only [Kont.left] at hle
          rcases hk.2 with rfl | ⟨d, rfl, h7, h8, h9⟩ <;> simp only [Spec.due, decide_eq_true_eq] <;> omega
        | winUser t =>
          simp only [Kont.left] at hle
          obtain ⟨_, rfl⟩ := hk
          simp only [Spec.due, decide_eq_true_eq]; omega
      · split at hs
        · exact sim_goto h hs ⟨a, hc, hm, hk, hw⟩
        · exact sim_goto h hs ⟨a, hc, hm, hk, hw⟩
    · next hf =>
      refine sim_fail (.inl rfl) (ret_events hs) hc ?_
      have hf := not_fits hf
      cases k with
      | report => cases hw
      | loop t => cases hw
      | winSteady t =>
        simp only [Kont.left] at hf
        obtain ⟨hsys, rfl | ⟨d, rfl, h7, h8, h9⟩⟩ := hk
        · simp only [Spec.extreme, hsys, if_true, Bool.or_eq_true, Bool.not_eq_true', fits_false]; omega
        · rw [fits_iff] at h9
          simp only [Spec.extreme, hsys, beq_self_eq_true, Bool.true_and, Bool.or_eq_true, Bool.not_eq_true', fits_false]
          right; omega
      | winUser t =>
        simp only [Kont.left] at hf
        obtain ⟨_, rfl⟩ := hk
        simp only [Spec.extreme, Bool.or_eq_true, Bool.not_eq_true', fits_false]
        left; omega
  | winWait d k =>
    simp only [go, hp] at hs
    rw [hp] at hok
    obtain ⟨a, hc, hm, hk, hw⟩ := hok
    refine sim_goto h hs ⟨a, hc, hm, hk, ?_⟩
    cases k <;> first | (cases hw; done) | (split <;> simp [TsOk, TOk])

theorem KOk.tick {a : Call} {k : Kont} {q' : Spec} (h : KOk c q a k) (hb : q'.began = q.began) (hn : q.now ≤ q'.now) : KOk c q' a k := by
  cases k with
  | winSteady t =>
    obtain ⟨h1, h2 | ⟨d, h2, h3, h4, h5⟩⟩ := h
    · exact ⟨h1, .inl h2⟩
    · exact ⟨h1, .inr ⟨d, h2, by omega, by omega, h5⟩⟩
  | _ => exact h

theorem TsOk.tick {a : Call} {k : Kont} {ts : Option Int} {q' : Spec} (h : TsOk q a k ts) (hb : q'.began = q.began) (hm : q.maxUser ≤ q'.maxUser) : TsOk q' a k ts := by
  cases ts with
  | none => exact h
  | some ts =>
    cases k with
    | report =>
      rcases h with h | ⟨d, h, h'⟩
      · exact .inl h
      · exact .inr ⟨d, h, by omega⟩
    | loop t => simp only [TsOk, TOk] at h ⊢; omega
    | _ => trivial

theorem due_tick {a : Call} {q' : Spec} (h : q.due a = true) (hb : q'.began = q.began) (hn : q.now ≤ q'.now) (hm : q.maxUser ≤ q'.maxUser) : q'.due a = true := by
  cases a with
  | until_ st t => cases st <;> simp only [Spec.due, decide_eq_true_eq] at h ⊢ <;> omega
  | for_ d => simp only [Spec.due, decide_eq_true_eq] at h ⊢; omega
  | forever => exact h

theorem Ok.tick {p : PC} {q' : Spec} (h : Ok c q p) (hc : q'.call = q.call) (hmi : q'.mine = q.mine) (hb : q'.began = q.began) (hn : q.now ≤ q'.now) (hm : q.maxUser ≤ q'.maxUser) (hl : q'.minUser ≤ q.minUser) :
    Ok c q' p := by
  cases p with
  | idle => exact hc.trans h
  | begin a => exact ⟨hc.trans h.1, by rw [hmi]; exact h.2⟩
  | addNow d k =>
    obtain ⟨a, t, u, h1, h2, h3, h4, h5, h6, h7⟩ := h
    exact ⟨a, t, u, hc.trans h1, by rw [hmi]; exact h2, h3.tick hb hn, h4, by omega, by omega, h7⟩
  | enter ts k =>
    obtain ⟨a, h1, h2, h3, h4, h5⟩ := h
    exact ⟨a, hc.trans h1, by rw [hmi]; exact h2, h3.tick hb hn, h4.tick hb hm, h5⟩
  | asleep ts k =>
    obtain ⟨a, h1, h2, h3, h4⟩ := h
    exact ⟨a, hc.trans h1, by rw [hmi]; exact h2, h3.tick hb hn, h4.tick hb hm⟩
  | expired k =>
    obtain ⟨a, h1, h2, h3, h4⟩ := h
    exact ⟨a, hc.trans h1, by rw [hmi]; exact h2, h3.tick hb hn, fun hk => due_tick (h4 hk) hb hn hm⟩
  | readUser t =>
    obtain ⟨a, h1, h2, h3⟩ := h
    exact ⟨a, hc.trans h1, by rw [hmi]; exact h2, h3.tick hb hn⟩
  | spin => trivial
  | dead => exact h
  | winTry k =>
    obtain ⟨a, h1, h2, h3, h4⟩ := h
    exact ⟨a, hc.trans h1, by rw [hmi]; exact h2, h3.tick hb hn, h4⟩
  | winRead k =>
    obtain ⟨a, h1, h2, h3, h4⟩ := h
    exact ⟨a, hc.trans h1, by rw [hmi]; exact h2, h3.tick hb hn, h4⟩
  | winWait d k =>
    obtain ⟨a, h1, h2, h3, h4⟩ := h
    exact ⟨a, hc.trans h1, by rw [hmi]; exact h2, h3.tick hb hn, h4⟩

theorem sim {l : Label} {es : List Event} (h : R c s q) (hs : step c s l = some (s', es)) : Follows (next false c) (R c s') q es := by
  have hok := h.ok
  have h1 := h.now; have h2 := h.user; have h3 := h.hi; have h4 := h.lo; have h5 := h.beg; have h6 := h.pos
  cases l with
  | call a =>
    simp only [step] at hs
    split at hs
    · next hp =>
      simp only [Option.some.injEq, Prod.mk.injEq] at hs
      obtain ⟨rfl, rfl⟩ := hs
      rw [hp] at hok
      have hc : q.call = none := hok
      by_cases hm : q.mine ≠ 0 ∧ c.recursive = false
      · simp [Follows, next, check, hc, hm.1, hm.2]
      · have hx' : q.mine ≠ 0 → c.recursive = true := by simpa using hm
        have e : next false c q (.called a) = .ok { q with call := some a, began := q.now, maxUser := q.user, minUser := q.user } := by
          simp only [next, check, hc, if_neg hm, Option.isNone_none, if_true]
        simp only [Follows, e]
        exact { h with pos := by simp only; omega, beg := by simp, hi := by simp, lo := by simp, ok := ⟨rfl, hx'⟩ }
    · cases hs
  | go => exact go_follows h hs
  | unlock =>
    simp only [step] at hs
    split at hs
    · next hp =>
      simp only [Option.some.injEq, Prod.mk.injEq] at hs
      obtain ⟨rfl, rfl⟩ := hs
      have hm : q.mine ≠ 0 := by rw [h.mine]; omega
      simp only [Follows, next, if_neg hm]
      rw [hp.1] at hok
      exact { h with mine := by simp [h.mine], excl := fun _ => h.excl hm, ok := by rw [hp.1]; exact hok }
    · cases hs
  | tick dn u =>
    simp only [step, Option.some.injEq, Prod.mk.injEq] at hs
    obtain ⟨rfl, rfl⟩ := hs
    simp only [Follows, next]
    exact { h with now := rfl, user := rfl, beg := by simp only; omega, hi := by simp only; omega, lo := by simp only; omega,
                   ok := hok.tick rfl rfl rfl (by simp only; omega) (by simp only; omega) (by simp only; omega) }
  | wake =>
    simp only [step] at hs
    split at hs
    · next ts k hp =>
      rw [hp] at hok
      obtain ⟨a, hc, hm, hk, ht⟩ := hok
      split at hs
      · next hw => exact sim_goto h hs ⟨a, hc, fun hx => absurd hm hx, hk, hw⟩
      · next hw =>
        refine sim_goto h hs ⟨a, hc, fun hx => absurd hm hx, hk, ht, ?_⟩
        cases k <;> first | exact hk.1 | exact hk | simp [Kont.isWin] at hw
    · cases hs
  | expire =>
    simp only [step] at hs
    split at hs
    · next ts k hp =>
      rw [hp] at hok
      obtain ⟨a, hc, hm, hk, ht⟩ := hok
      split at hs
      · next hle =>
        split at hs
        · next hw => exact sim_goto h hs ⟨a, hc, hm, hk, hw⟩
        · next hw =>
          refine sim_goto h hs ⟨a, hc, hm, hk, ?_⟩
          rintro rfl
          rcases ht with rfl | ⟨d, rfl, hd⟩ <;> simp only [Spec.due, decide_eq_true_eq] <;> omega
      · cases hs
    · cases hs
  | otherLock =>
    simp only [step] at hs
    split at hs
    · next hl =>
      simp only [Option.some.injEq, Prod.mk.injEq] at hs
      obtain ⟨rfl, rfl⟩ := hs
      have ho := not_locked h hl.1
      have hm : q.mine = 0 := by
        have := hl.1
        simp only [State.locked, Bool.or_eq_false_iff, decide_eq_false_iff_not] at this
        rw [h.mine]; omega
      simp only [Follows, next, check, ho, hm, Bool.not_false, beq_self_eq_true, Bool.and_self, if_true]
      exact { h with other := rfl, mine := by simp [← h.mine, hm], excl := fun hx => absurd rfl hx, ok := hok.tick rfl (by simp [hm]) rfl (by simp) (by simp) (by simp) }
    · cases hs
  | otherUnlock =>
    simp only [step] at hs
    split at hs
    · next hl =>
      simp only [Option.some.injEq, Prod.mk.injEq] at hs
      obtain ⟨rfl, rfl⟩ := hs
      have ho : q.other = true := by rw [h.other]; exact hl.1
      simp only [Follows, next, check, ho, if_true]
      exact { h with other := rfl, excl := fun _ => rfl, ok := hok.tick rfl rfl rfl (by simp) (by simp) (by simp) }
    · cases hs

end Verif.TimedLock
