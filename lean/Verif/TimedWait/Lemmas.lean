import Verif.TimedWait.Spec
/-!
# Simulation for timed waits
-/

namespace Verif.TimedWait

def KOk (q : SState) (c : Call) : Kont → Prop
  | .report => shapeOf c = .status
  | .reportUser t => shapeOf c = .status ∧ dueOf c = .at (.user t)
  | .loopInternal ts => shapeOf c = .val ∧ (dueOf c = .at (.internal ts) ∨ ∃ d, dueOf c = .after d ∧ q.began + d ≤ ts)
  | .loopUser t => shapeOf c = .val ∧ dueOf c = .at (.user t)
  | .loopForever b => shapeOf c = if b then .val else .unit
  | .plainTrue => shapeOf c = .status

/-- What is known about the relative time before the internal clock is added. -/
def DOk (q : SState) (c : Call) (d : Int) : Kont → Prop
  | .report => dueOf c = .after d
  | .reportUser t => ∃ u, q.minUser ≤ u ∧ u ≤ q.maxUser ∧ d = t - u
  | .loopUser t => ∃ u, q.minUser ≤ u ∧ u ≤ q.maxUser ∧ 0 < d ∧ d ≤ t - u
  | _ => False

/-- What is known about the absolute time handed to `pthread_cond_timedwait`. -/
def TOk (q : SState) (c : Call) (ts : Int) : Kont → Prop
  | .report => dueOf c = .at (.internal ts) ∨ ∃ d, dueOf c = .after d ∧ q.began + d ≤ ts
  | .reportUser t => q.began + (t - q.maxUser) ≤ ts
  | .loopInternal ts' => ts = ts'
  | .loopUser _ => 0 ≤ ts
  | _ => False

def isForever : Kont → Prop
  | .loopForever _ => True
  | .plainTrue => True
  | _ => False

def isLoop : Kont → Prop
  | .loopInternal _ => True
  | .loopUser _ => True
  | .loopForever _ => True
  | _ => False

/-- What a time-out reported by `do_wait_until` means. -/
def ROk (q : SState) (c : Call) : Kont → Prop
  | .report => q.passed c = true
  | .loopInternal _ => q.passed c = true
  | _ => True

def Ok (q : SState) : PC → Prop
  | .idle => q.call = none ∧ q.held = true
  | .begin c => q.call = some c ∧ q.held = true
  | .check k => ∃ c, q.call = some c ∧ q.held = true ∧ KOk q c k ∧ isLoop k
  | .readUser t => ∃ c, q.call = some c ∧ q.held = true ∧ KOk q c (.loopUser t)
  | .addNow d k => ∃ c, q.call = some c ∧ q.held = true ∧ KOk q c k ∧ DOk q c d k
  | .enter (some ts) k => ∃ c, q.call = some c ∧ q.held = true ∧ KOk q c k ∧ TOk q c ts k
  | .enter none k => ∃ c, q.call = some c ∧ q.held = true ∧ KOk q c k ∧ isForever k
  | .asleep (some ts) k => ∃ c, q.call = some c ∧ q.held = false ∧ KOk q c k ∧ TOk q c ts k
  | .asleep none k => ∃ c, q.call = some c ∧ q.held = false ∧ KOk q c k ∧ isForever k
  | .relock res k => ∃ c, q.call = some c ∧ q.held = false ∧ KOk q c k ∧ (res = false → ROk q c k)
  | .after res k => ∃ c, q.call = some c ∧ q.held = true ∧ KOk q c k ∧ (res = false → ROk q c k)
  | .fin => ∃ c, q.call = some c ∧ q.held = true ∧ shapeOf c = .val ∧ (q.pred = true ∨ q.passed c = true)

structure R (s : State) (q : SState) : Prop where
  now : q.now = s.now
  user : q.user = s.user
  pred : q.pred = s.pred
  held : q.held = s.held
  pos : 0 ≤ q.began
  beg : q.began ≤ q.now
  hi : q.user ≤ q.maxUser
  lo : q.minUser ≤ q.user
  ok : Ok q s.pc

theorem validTs_of_nonneg {x : Int} (h : 0 ≤ x) : validTs x = true := by
  have e : x.tdiv 1000000000 = x / 1000000000 := Int.tdiv_eq_ediv_of_nonneg h
  simp only [validTs, e, decide_eq_true_eq]
  omega

theorem neg_of_not_validTs {x : Int} (h : ¬ validTs x = true) : x < 0 := by
  by_cases h0 : 0 ≤ x
  · exact absurd (validTs_of_nonneg h0) h
  · omega

theorem passed_mono {q q' : SState} {c : Call} (hb : q'.began = q.began) (hn : q.now ≤ q'.now) (hm : q.maxUser ≤ q'.maxUser)
    (h : q.passed c = true) : q'.passed c = true := by
  unfold SState.passed at h ⊢
  cases hd : dueOf c with
  | «at» d => cases d <;> simp only [hd, decide_eq_true_eq, Bool.false_eq_true] at h ⊢ <;> omega
  | after d => simp only [hd, decide_eq_true_eq] at h ⊢; omega

theorem KOk.congr {q q' : SState} {c : Call} {k : Kont} (hb : q'.began = q.began) (h : KOk q c k) : KOk q' c k := by
  cases k <;> simp only [KOk, hb] at h ⊢ <;> exact h

/-- Time goes on, the predicate stays. -/
theorem Ok.tick {q : SState} {p : PC} (n u : Int) (hn : q.now ≤ n) (h : Ok q p) :
    Ok { q with now := n, user := u, maxUser := max q.maxUser u, minUser := min q.minUser u } p := by
  have hm : q.maxUser ≤ max q.maxUser u := by omega
  have hT : ∀ {c ts k}, TOk q c ts k → TOk { q with now := n, user := u, maxUser := max q.maxUser u, minUser := min q.minUser u } c ts k := by
    intro c ts k h
    cases k <;> simp only [TOk] at h ⊢ <;> first | exact h | omega
  have hR : ∀ {c k}, ROk q c k → ROk { q with now := n, user := u, maxUser := max q.maxUser u, minUser := min q.minUser u } c k := by
    intro c k h
    cases k <;> simp only [ROk] at h ⊢ <;> exact passed_mono (q := q) rfl hn hm h
  cases p with
  | idle => exact h
  | begin c => exact h
  | check k => obtain ⟨c, a, b, d, e⟩ := h; exact ⟨c, a, b, d.congr rfl, e⟩
  | readUser t => obtain ⟨c, a, b, d⟩ := h; exact ⟨c, a, b, d⟩
  | addNow d k =>
    obtain ⟨c, a, b, e, f⟩ := h
    refine ⟨c, a, b, e.congr rfl, ?_⟩
    cases k <;> simp only [DOk] at f ⊢
    · exact f
    · obtain ⟨v, h1, h2, h3⟩ := f; exact ⟨v, by omega, by omega, h3⟩
    · obtain ⟨v, h1, h2, h3⟩ := f; exact ⟨v, by omega, by omega, h3⟩
  | enter ts k =>
    cases ts with
    | some ts => obtain ⟨c, a, b, d, e⟩ := h; exact ⟨c, a, b, d.congr rfl, hT e⟩
    | none => obtain ⟨c, a, b, d, e⟩ := h; exact ⟨c, a, b, d.congr rfl, e⟩
  | asleep ts k =>
    cases ts with
    | some ts => obtain ⟨c, a, b, d, e⟩ := h; exact ⟨c, a, b, d.congr rfl, hT e⟩
    | none => obtain ⟨c, a, b, d, e⟩ := h; exact ⟨c, a, b, d.congr rfl, e⟩
  | relock res k => obtain ⟨c, a, b, d, e⟩ := h; exact ⟨c, a, b, d.congr rfl, fun x => hR (e x)⟩
  | after res k => obtain ⟨c, a, b, d, e⟩ := h; exact ⟨c, a, b, d.congr rfl, fun x => hR (e x)⟩
  | fin =>
    obtain ⟨c, a, b, d, e⟩ := h
    exact ⟨c, a, b, d, e.imp id (passed_mono (q := q) rfl hn hm)⟩

/-- The predicate changes while the lock is not held. -/
theorem Ok.predChange {q : SState} {p : PC} (b : Bool) (hh : q.held = false) (h : Ok q p) : Ok { q with pred := b } p := by
  cases p with
  | idle => simp [Ok, hh] at h
  | begin c => simp [Ok, hh] at h
  | check k => simp [Ok, hh] at h
  | readUser t => simp [Ok, hh] at h
  | addNow d k => simp [Ok, hh] at h
  | enter ts k => cases ts <;> simp [Ok, hh] at h
  | asleep ts k => cases ts <;> exact h
  | relock res k => exact h
  | after res k => simp [Ok, hh] at h
  | fin => simp [Ok, hh] at h

def Sim (s' : State) (q : SState) (es : List Event) : Prop := Follows (next false) (R s') q es

theorem sim_goto {s s' : State} {q : SState} {p : PC} {es : List Event} (h : R s q) (hs : goto s p = some (s', es)) (ho : Ok q p) : Sim s' q es := by
  simp only [goto, Option.some.injEq, Prod.mk.injEq] at hs
  obtain ⟨rfl, rfl⟩ := hs
  exact { h with ok := ho }

theorem sim_val {s s' : State} {q : SState} {c : Call} {b : Bool} {es : List Event} (h : R s q) (hs : ret s (.val b) = some (s', es))
    (hc : q.call = some c) (hh : q.held = true) (hb : b = q.pred) (hp : b = true ∨ q.passed c = true) (hsh : shapeOf c = .val) : Sim s' q es := by
  simp only [ret, Option.some.injEq, Prod.mk.injEq] at hs
  obtain ⟨rfl, rfl⟩ := hs
  have : (q.held && (b == q.pred) && (b || q.passed c) && shapeOf c == .val) = true := by
    rcases hp with hp | hp <;> simp [hh, hsh, hp, ← hb]
  simp only [Sim, Follows, next, hc, this, allow, if_true]
  exact { h with ok := ⟨rfl, hh⟩ }

theorem sim_status {s s' : State} {q : SState} {c : Call} {b : Bool} {es : List Event} (h : R s q) (hs : ret s (.status b) = some (s', es))
    (hc : q.call = some c) (hh : q.held = true) (hp : b = true → q.passed c = true) (hsh : shapeOf c = .status) : Sim s' q es := by
  simp only [ret, Option.some.injEq, Prod.mk.injEq] at hs
  obtain ⟨rfl, rfl⟩ := hs
  have : (q.held && (!b || q.passed c) && shapeOf c == .status) = true := by
    cases b
    · simp [hh, hsh]
    · simp [hh, hsh, hp rfl]
  simp only [Sim, Follows, next, hc, this, allow, if_true]
  exact { h with ok := ⟨rfl, hh⟩ }

theorem sim_fail {s s' : State} {q : SState} {c : Call} {r : Ret} {es : List Event} (hr : r = .threw ∨ r = .overflow) (hs : ret s r = some (s', es))
    (hc : q.call = some c) (hx : q.extreme c = true) : Sim s' q es := by
  simp only [ret, Option.some.injEq, Prod.mk.injEq] at hs
  obtain ⟨rfl, rfl⟩ := hs
  rcases hr with rfl | rfl <;> simp [Sim, Follows, next, hc, hx]

theorem sim_start {s s' : State} {q : SState} {c : Call} {es : List Event} (h : R s q) (hc : q.call = some c) (hh : q.held = true)
    (hs : start s c = some (s', es)) : Sim s' q es := by
  have hn := h.now; have hu := h.user; have hb := h.beg; have h0 := h.pos; have h1 := h.hi; have h2 := h.lo
  cases c with
  | waitP => exact sim_goto h hs ⟨_, hc, hh, rfl, trivial⟩
  | waitUntil i t =>
    cases i
    · simp only [start] at hs
      split at hs
      · exact sim_goto h hs ⟨_, hc, hh, ⟨rfl, rfl⟩, q.user, h2, h1, by rw [hu]⟩
      · rename_i hr
        refine sim_fail (.inr rfl) hs hc ?_
        simp only [SState.extreme, dueOf, Bool.or_eq_true, Bool.not_eq_true', decide_eq_true_eq]
        simp only [inRange, decide_eq_true_eq, decide_eq_false_iff_not] at hr ⊢
        omega
    · exact sim_goto h hs ⟨_, hc, hh, rfl, .inl rfl⟩
  | waitUntilP i t =>
    cases i
    · exact sim_goto h hs ⟨_, hc, hh, ⟨rfl, rfl⟩, trivial⟩
    · exact sim_goto h hs ⟨_, hc, hh, ⟨rfl, .inl rfl⟩, trivial⟩
  | waitFor d =>
    simp only [start] at hs
    split at hs
    · exact sim_goto h hs ⟨_, hc, hh, rfl, .inr ⟨d, rfl, by omega⟩⟩
    · rename_i hr
      refine sim_fail (.inr rfl) hs hc ?_
      simp only [SState.extreme, dueOf, hn, hr, Bool.not_false, Bool.true_or]
  | waitForP d =>
    simp only [start] at hs
    split at hs
    · exact sim_goto h hs ⟨_, hc, hh, ⟨rfl, .inr ⟨d, rfl, by omega⟩⟩, trivial⟩
    · rename_i hr
      refine sim_fail (.inr rfl) hs hc ?_
      simp only [SState.extreme, dueOf, hn, hr, Bool.not_false, Bool.true_or]
  | timedWait x =>
    cases x with
    | posInf => exact sim_goto h hs ⟨_, hc, hh, rfl, trivial⟩
    | special => exact sim_status h hs hc hh (by simp) rfl
    | val d => exact sim_goto h hs ⟨_, hc, hh, rfl, rfl⟩
  | timedWaitP x =>
    cases x with
    | posInf => exact sim_goto h hs ⟨_, hc, hh, rfl, trivial⟩
    | special => exact sim_goto h hs ⟨_, hc, hh, rfl, .inr rfl⟩
    | val d =>
      simp only [start] at hs
      split at hs
      · exact sim_goto h hs ⟨_, hc, hh, ⟨rfl, .inr ⟨d, rfl, by omega⟩⟩, trivial⟩
      · rename_i hr
        refine sim_fail (.inr rfl) hs hc ?_
        simp only [SState.extreme, dueOf, hn, hr, Bool.not_false, Bool.true_or]

theorem sim_go {s s' : State} {q : SState} {es : List Event} (h : R s q) (hs : go s = some (s', es)) : Sim s' q es := by
  have hn := h.now; have hu := h.user; have hb := h.beg; have h0 := h.pos; have h1 := h.hi; have h2 := h.lo; have hpr := h.pred
  have hok := h.ok
  unfold go at hs
  cases hp : s.pc with
  | idle => simp [hp] at hs
  | begin c =>
    simp only [hp] at hs hok
    exact sim_start h hok.1 hok.2 hs
  | check k =>
    simp only [hp] at hs hok
    obtain ⟨c, hc, hh, hk, hl⟩ := hok
    split at hs
    · rename_i hpred
      cases k with
      | loopForever b =>
        simp only [KOk] at hk
        cases b
        · simp only [ret, Bool.false_eq_true, if_false, Option.some.injEq, Prod.mk.injEq] at hs
          obtain ⟨rfl, rfl⟩ := hs
          simp only [Bool.false_eq_true, if_false] at hk
          have : (q.held && q.pred && shapeOf c == .unit) = true := by simp [hh, hpr, hpred, hk]
          simp only [Sim, Follows, next, hc, this, allow, if_true]
          exact { h with ok := ⟨rfl, hh⟩ }
        · simp only [if_true] at hs hk
          exact sim_val h hs hc hh (by rw [hpr, hpred]) (.inl rfl) hk
      | loopInternal ts => exact sim_goto h hs ⟨c, hc, hh, hk.1, .inl (by rw [hpr, hpred])⟩
      | loopUser t => exact sim_goto h hs ⟨c, hc, hh, hk.1, .inl (by rw [hpr, hpred])⟩
      | report => exact hl.elim
      | reportUser t => exact hl.elim
      | plainTrue => exact hl.elim
    · cases k with
      | loopForever b => exact sim_goto h hs ⟨c, hc, hh, hk, trivial⟩
      | loopInternal ts => exact sim_goto h hs ⟨c, hc, hh, hk, rfl⟩
      | loopUser t => exact sim_goto h hs ⟨c, hc, hh, hk⟩
      | report => exact hl.elim
      | reportUser t => exact hl.elim
      | plainTrue => exact hl.elim
  | readUser t =>
    simp only [hp] at hs hok
    obtain ⟨c, hc, hh, hk⟩ := hok
    split at hs
    · split at hs
      · refine sim_goto h hs ⟨c, hc, hh, hk.1, .inr ?_⟩
        simp only [SState.passed, hk.2, decide_eq_true_eq]; omega
      · exact sim_goto h hs ⟨c, hc, hh, hk, q.user, h2, h1, by simp only [poll]; omega, by simp only [poll]; omega⟩
    · rename_i hr
      refine sim_fail (.inr rfl) hs hc ?_
      simp only [SState.extreme, hk.2, Bool.or_eq_true, Bool.not_eq_true', decide_eq_true_eq]
      simp only [inRange, decide_eq_true_eq, decide_eq_false_iff_not] at hr ⊢
      omega
  | addNow d k =>
    simp only [hp] at hs hok
    obtain ⟨c, hc, hh, hk, hd⟩ := hok
    split at hs
    · cases k with
      | report => exact sim_goto h hs ⟨c, hc, hh, hk, .inr ⟨d, hd, by omega⟩⟩
      | reportUser t =>
        obtain ⟨u, a, b, e⟩ := hd
        exact sim_goto h hs ⟨c, hc, hh, hk, by simp only [TOk]; omega⟩
      | loopUser t =>
        obtain ⟨u, a, b, e, f⟩ := hd
        exact sim_goto h hs ⟨c, hc, hh, hk, by simp only [TOk]; omega⟩
      | loopInternal ts => exact hd.elim
      | loopForever b => exact hd.elim
      | plainTrue => exact hd.elim
    · rename_i hr
      refine sim_fail (.inr rfl) hs hc ?_
      cases k with
      | report => simp only [DOk] at hd; simp only [SState.extreme, hd, hn, hr, Bool.not_false, Bool.true_or]
      | reportUser t =>
        obtain ⟨u, a, b, e⟩ := hd
        simp only [SState.extreme, hk.2, Bool.or_eq_true, Bool.not_eq_true', decide_eq_true_eq]
        simp only [inRange, decide_eq_true_eq, decide_eq_false_iff_not] at hr ⊢
        omega
      | loopUser t =>
        obtain ⟨u, a, b, e, f⟩ := hd
        simp only [SState.extreme, hk.2, Bool.or_eq_true, Bool.not_eq_true', decide_eq_true_eq]
        simp only [inRange, decide_eq_true_eq, decide_eq_false_iff_not] at hr ⊢
        omega
      | loopInternal ts => exact hd.elim
      | loopForever b => exact hd.elim
      | plainTrue => exact hd.elim
  | enter ts k =>
    cases ts with
    | none =>
      simp only [hp] at hs hok
      obtain ⟨c, hc, hh, hk, hf⟩ := hok
      simp only [Option.some.injEq, Prod.mk.injEq] at hs
      obtain ⟨rfl, rfl⟩ := hs
      exact { h with held := rfl, ok := ⟨c, hc, rfl, hk.congr rfl, hf⟩ }
    | some ts =>
      simp only [hp] at hs hok
      obtain ⟨c, hc, hh, hk, ht⟩ := hok
      split at hs
      · simp only [Option.some.injEq, Prod.mk.injEq] at hs
        obtain ⟨rfl, rfl⟩ := hs
        refine { h with held := rfl, ok := ⟨c, hc, rfl, hk.congr rfl, ?_⟩ }
        cases k <;> exact ht
      · rename_i hv
        have hneg := neg_of_not_validTs (x := ts) (by intro hx; simp [hx] at hv)
        refine sim_fail (.inl rfl) hs hc ?_
        cases k with
        | report =>
          rcases ht with ht | ⟨d, ht, e⟩
          · simp only [SState.extreme, ht, decide_eq_true_eq]; exact hneg
          · simp only [SState.extreme, ht, Bool.or_eq_true, decide_eq_true_eq]; exact .inr (by omega)
        | reportUser t =>
          simp only [TOk] at ht
          simp only [SState.extreme, hk.2, Bool.or_eq_true, decide_eq_true_eq]; exact .inl (.inr (by omega))
        | loopInternal ts' =>
          simp only [TOk] at ht; subst ht
          rcases hk.2 with ht | ⟨d, ht, e⟩
          · simp only [SState.extreme, ht, decide_eq_true_eq]; exact hneg
          · simp only [SState.extreme, ht, Bool.or_eq_true, decide_eq_true_eq]; exact .inr (by omega)
        | loopUser t => simp only [TOk] at ht; omega
        | loopForever b => exact ht.elim
        | plainTrue => exact ht.elim
  | asleep ts k => simp [hp] at hs
  | relock res k =>
    simp only [hp] at hs hok
    obtain ⟨c, hc, hh, hk, hr⟩ := hok
    simp only [Option.some.injEq, Prod.mk.injEq] at hs
    obtain ⟨rfl, rfl⟩ := hs
    refine { h with held := rfl, ok := ⟨c, hc, rfl, hk.congr rfl, fun e => ?_⟩ }
    have := hr e
    cases k <;> exact this
  | after res k =>
    simp only [hp] at hs hok
    obtain ⟨c, hc, hh, hk, hr⟩ := hok
    cases k with
    | report =>
      refine sim_status h hs hc hh (fun e => ?_) hk
      simp only [Bool.not_eq_true'] at e
      exact hr e
    | reportUser t =>
      refine sim_status h hs hc hh (fun e => ?_) hk.1
      simp only [Bool.not_eq_true', decide_eq_false_iff_not] at e
      simp only [SState.passed, hk.2, decide_eq_true_eq]; omega
    | loopInternal ts =>
      simp only at hs
      split at hs
      · exact sim_goto h hs ⟨c, hc, hh, hk, trivial⟩
      · rename_i e
        exact sim_goto h hs ⟨c, hc, hh, hk.1, .inr (hr (by simpa using e))⟩
    | loopUser t => exact sim_goto h hs ⟨c, hc, hh, hk, trivial⟩
    | loopForever b => exact sim_goto h hs ⟨c, hc, hh, hk, trivial⟩
    | plainTrue => exact sim_status h hs hc hh (by simp) hk
  | fin =>
    simp only [hp] at hs hok
    obtain ⟨c, hc, hh, hk, hr⟩ := hok
    exact sim_val h hs hc hh hpr.symm (by rw [← hpr]; exact hr) hk

theorem sim_step {s s' : State} {q : SState} {l : Label} {es : List Event} (h : R s q) (hs : step s l = some (s', es)) :
    Follows (next false) (R s') q es := by
  cases l with
  | go => exact sim_go h hs
  | call c =>
    simp only [step] at hs
    split at hs
    · rename_i hp
      simp only [Option.some.injEq, Prod.mk.injEq] at hs
      obtain ⟨rfl, rfl⟩ := hs
      have hok := h.ok
      rw [hp.1] at hok
      simp only [Follows, next, hok.1]
      have h1 := h.pos; have h2 := h.beg
      exact { now := h.now, user := h.user, pred := h.pred, held := h.held, pos := by simp only; omega, beg := Int.le_refl _,
              hi := Int.le_refl _, lo := Int.le_refl _, ok := ⟨rfl, hok.2⟩ }
    · simp at hs
  | tick dn u =>
    simp only [step, Option.some.injEq, Prod.mk.injEq] at hs
    obtain ⟨rfl, rfl⟩ := hs
    have h1 := h.beg; have h2 := h.now
    refine { now := rfl, user := rfl, pred := h.pred, held := h.held, pos := h.pos, beg := by simp only; omega, hi := by simp only; omega,
             lo := by simp only; omega, ok := ?_ }
    exact h.ok.tick _ _ (by omega)
  | setPred b =>
    simp only [step] at hs
    split at hs
    · simp at hs
    · rename_i hh
      simp only [Option.some.injEq, Prod.mk.injEq] at hs
      obtain ⟨rfl, rfl⟩ := hs
      exact { h with pred := rfl, ok := h.ok.predChange b (by rw [h.held]; simpa using hh) }
  | wake =>
    simp only [step] at hs
    split at hs
    · rename_i ts k hp
      simp only [Option.some.injEq, Prod.mk.injEq] at hs
      obtain ⟨rfl, rfl⟩ := hs
      have hok := h.ok
      rw [hp] at hok
      refine { h with ok := ?_ }
      cases ts with
      | none => obtain ⟨c, a, b, d, e⟩ := hok; exact ⟨c, a, b, d, by simp⟩
      | some ts => obtain ⟨c, a, b, d, e⟩ := hok; exact ⟨c, a, b, d, by simp⟩
    · simp at hs
  | expire =>
    simp only [step] at hs
    split at hs
    · rename_i ts k hp
      split at hs
      · rename_i ht
        simp only [Option.some.injEq, Prod.mk.injEq] at hs
        obtain ⟨rfl, rfl⟩ := hs
        have hok := h.ok
        rw [hp] at hok
        obtain ⟨c, a, b, d, e⟩ := hok
        have hn := h.now
        refine { h with ok := ⟨c, a, b, d, fun _ => ?_⟩ }
        cases k with
        | report =>
          simp only [ROk, SState.passed]
          rcases e with e | ⟨x, e, f⟩ <;> simp only [e, decide_eq_true_eq] <;> omega
        | loopInternal ts' =>
          simp only [TOk] at e; subst e
          simp only [ROk, SState.passed]
          rcases d.2 with e | ⟨x, e, f⟩ <;> simp only [e, decide_eq_true_eq] <;> omega
        | _ => trivial
      · simp at hs
    · simp at hs

end Verif.TimedWait
