import Verif.Scheduler.Sim
set_option linter.unusedSimpArgs false
set_option linter.unusedVariables false
/-! # Due work is started, and destruction ends -/

namespace Verif.Scheduler

open TimedQueue (Reads Kind PC)

variable {c : TimedQueue.Cfg} {n : Nat}

/-- The queue is closed and nobody sleeps in it. -/
def Awake (q : TimedQueue.State Work) : Prop := q.closed = true ∧ cnt PC.isAsleep q.ts = 0

theorem awake_step {q q' : TimedQueue.State Work} {l es} (hI : TimedQueue.Inv c q) (h : Awake q) (hs : TimedQueue.step c q l = some (q', es)) : Awake q' := by
  have := TimedQueue.step_ok (ub := true) (h := [.closeReturned 0]) (q := ⟨q.data, q.closed⟩) (Or.inl rfl) hI (fun _ => h) ⟨List.Perm.refl _, rfl⟩ hs
  exact this.closed ⟨0, by simp⟩

theorem awake_close {q q' : TimedQueue.State Work} {t es} (hI : TimedQueue.Inv c q) (hs : TimedQueue.step c q (.closeNotify t) = some (q', es)) : Awake q' := by
  have hx : es = [.closeReturned t] := by
    simp only [TimedQueue.step] at hs
    split at hs <;> cases hs
    rfl
  have := TimedQueue.step_ok (ub := true) (h := []) (q := ⟨q.data, q.closed⟩) (Or.inl rfl) hI (by rintro ⟨t, ht⟩; cases ht) ⟨List.Perm.refl _, rfl⟩ hs
  exact this.closed ⟨t, by simp [hx]⟩

/-! ### The destructor's own call of `close` is not disturbed -/

theorem check_ts {s s' : TimedQueue.State Work} {t i : Nat} {k : Kind} {due dead : Int} {es} {cont}
    (hc : ∀ s1, s1.ts = s.ts → cont s1 = some (s', es) → ∃ p, s'.ts = s.ts.set t p)
    (h : TimedQueue.check c s t k i due dead cont = some (s', es)) : ∃ p, s'.ts = s.ts.set t p := by
  have rs : ∀ {s s1 : TimedQueue.State Work} {r : Int}, TimedQueue.readSteady s r = some s1 → s1.ts = s.ts := by
    intro s s1 r h
    simp only [TimedQueue.readSteady] at h
    split at h <;> cases h
    rfl
  simp only [TimedQueue.check] at h
  split at h
  · cases h
  · rename_i s1 h1
    have ht := readClock_ts h1
    split at h
    · rw [← ht]; obtain ⟨p, hp, -⟩ := pop_res h; exact ⟨p, hp⟩
    · split at h
      · cases h; exact ⟨_, by rw [ht]⟩
      · split at h
        · exact hc _ ht h
        · exact hc _ ht h
        · split at h
          · cases h
          · rename_i s2 h2
            have ht2 := readClock_ts h2
            split at h
            · cases h; exact ⟨_, by rw [ht2, ht]⟩
            · exact hc _ (ht2.trans ht) h
        · split at h
          · cases h
          · rename_i s2 h2
            have ht2 := rs h2
            split at h
            · cases h; exact ⟨_, by rw [ht2, ht]⟩
            · exact hc _ (ht2.trans ht) h

theorem second_ts {s s' : TimedQueue.State Work} {t i : Nat} {k : Kind} {r : Reads} {es} (h : TimedQueue.second c s t k i r = some (s', es)) :
    ∃ p, s'.ts = s.ts.set t p := by
  refine check_ts ?_ h
  intro s1 h1 h
  split at h
  · cases h; exact ⟨_, by rw [h1]⟩
  · split at h
    · cases h
    · rename_i s2 h2
      have := readClock_ts h2
      cases h; exact ⟨_, by rw [this, h1]⟩

theorem first_ts {s s' : TimedQueue.State Work} {t i : Nat} {k : Kind} {r : Reads} {es} (h : TimedQueue.first c s t k i r = some (s', es)) :
    ∃ p, s'.ts = s.ts.set t p := by
  refine check_ts ?_ h
  intro s1 h1 h
  split at h
  · cases h; exact ⟨_, by rw [h1]⟩
  · rw [← h1]; exact second_ts h

theorem keeps_closing {q q' : TimedQueue.State Work} {l es} {u : Nat} (hs : TimedQueue.step c q l = some (q', es)) (h : q.ts[u]? = some .closing)
    (hl : l ≠ .closeNotify u) : q'.ts[u]? = some .closing := by
  have set_ : ∀ {t : Nat} {p p' : PC}, q.ts[t]? = some p → p ≠ .closing → (q.ts.set t p')[u]? = some .closing := by
    intro t p p' ht hp
    rw [List.getElem?_set]
    split
    · rename_i htu; rw [← htu, ht] at h; cases h; exact absurd rfl hp
    · exact h
  have rs : ∀ {s s1 : TimedQueue.State Work} {r : Int}, TimedQueue.readSteady s r = some s1 → s1.ts = s.ts := by
    intro s s1 r h
    simp only [TimedQueue.readSteady] at h
    split at h <;> cases h
    rfl
  have rc : ∀ {s s1 : TimedQueue.State Work} {r : Int}, TimedQueue.readClock c s r = some s1 → s1.ts = s.ts := fun h => readClock_ts h
  cases l with
  | push t v due =>
    simp only [TimedQueue.step] at hs
    repeat' split at hs
    all_goals cases hs
    · exact h
    · simp [h, PC.wake]
  | tryPull t now i =>
    simp only [TimedQueue.step] at hs
    split at hs
    · rename_i ht
      split at hs
      · cases hs
      · rename_i s1 h1
        have := rc h1
        split at hs
        · obtain ⟨p, hp, -⟩ := pop_res hs
          rw [hp, this]; exact set_ ht (by simp)
        · repeat' split at hs
          all_goals cases hs
          all_goals rw [this]; exact h
    · cases hs
  | busyPull t =>
    simp only [TimedQueue.step] at hs
    split at hs <;> cases hs
    exact h
  | pull t k r i =>
    simp only [TimedQueue.step] at hs
    split at hs
    · rename_i ht
      obtain ⟨p, hp⟩ := first_ts hs
      rw [hp]; exact set_ ht (by simp)
    · cases hs
  | resume t r i =>
    simp only [TimedQueue.step] at hs
    split at hs
    · rename_i ht
      split at hs
      · cases hs; exact set_ ht (by simp)
      · obtain ⟨p, hp⟩ := second_ts hs
        rw [hp]; exact set_ ht (by simp)
    · rename_i ht
      obtain ⟨p, hp⟩ := second_ts hs
      rw [hp]; exact set_ ht (by simp)
    · rename_i ht
      obtain ⟨p, hp⟩ := first_ts hs
      rw [hp]; exact set_ ht (by simp)
    · cases hs
  | spurious t =>
    simp only [TimedQueue.step] at hs
    split at hs
    · rename_i ht; cases hs; exact set_ ht (by simp)
    · rename_i ht; cases hs; exact set_ ht (by simp)
    · cases hs
  | timeout t r =>
    simp only [TimedQueue.step] at hs
    split at hs
    all_goals try (rename_i ht; split at hs; · cases hs)
    all_goals try (rename_i s1 h1; split at hs)
    all_goals cases hs
    all_goals first
      | (have hh := rc (by assumption); simp only [hh]; exact set_ (by assumption) (by simp))
      | (have hh := rs (by assumption); simp only [hh]; exact set_ (by assumption) (by simp))
      | exact set_ (by assumption) (by simp)
  | interrupt t =>
    simp only [TimedQueue.step] at hs
    split at hs
    all_goals cases hs
    all_goals exact set_ (by assumption) (by simp)
  | close t =>
    simp only [TimedQueue.step] at hs
    split at hs
    · rename_i ht; cases hs; exact set_ ht (by simp)
    · cases hs
  | closeNotify t =>
    simp only [TimedQueue.step] at hs
    split at hs
    · rename_i ht
      cases hs
      have : t ≠ u := by rintro rfl; exact hl rfl
      simp [List.getElem?_set, this, h, PC.wake]
    · cases hs

/-- Everything that holds of reachable states. -/
structure Ok (c : TimedQueue.Cfg) (n : Nat) (s : State) : Prop where
  rel : ∃ b, Rel c n s b
  awake : ∀ d k, s.dtor = .intr d k → Awake s.q
  clos : ∀ d, s.dtor = .closing d → n ≤ d ∧ s.q.ts[d]? = some .closing
  upto : ∀ d k, s.dtor = .intr d k → k ≤ n

theorem follows_some {P : Book → Prop} {b : Book} {es : List Event} (h : Follows (specNext n false) P b es) : ∃ b', specState (specNext n false) b es = some b' ∧ P b' := by
  induction es generalizing b with
  | nil => exact ⟨b, rfl, h⟩
  | cons e es ih =>
    simp only [Follows, specState] at h ⊢
    cases hn : specNext n false b e with
    | ok b' => simp only [hn] at h ⊢; exact ih h
    | illegal => simp [hn] at h
    | undefined =>
      exfalso
      cases e <;> simp only [specNext, must] at hn <;> repeat' split at hn
      all_goals cases hn <;> simp_all

/-- A step either leaves the queue alone or is a step of the queue. -/
theorem queue_moves {s s' : State} {l : Label} {es : List Event} (h : step c n s l = some (s', es)) :
    (s'.q = s.q ∨ ∃ ql qes, TimedQueue.step c s.q ql = some (s'.q, qes) ∧
      ∀ d, s.dtor = .closing d → ql = .closeNotify d → s'.dtor = .intr d 0 ∨ d < n) ∧
    (s'.dtor = s.dtor ∨ s'.dtor = .gone ∨ (∃ d k, s.dtor = .intr d k ∧ s'.dtor = .intr d (k + 1) ∧ k < n) ∨
      (∃ d qes, s'.dtor = .closing d ∧ n ≤ d ∧ TimedQueue.step c s.q (.close d) = some (s'.q, qes)) ∨
      ∃ d qes, s'.dtor = .intr d 0 ∧ TimedQueue.step c s.q (.closeNotify d) = some (s'.q, qes)) := by
  simp only [step] at h
  split at h
  · cases h
  cases l with
  | closeNotify t =>
    simp only [queue] at h
    split at h
    · rename_i hm
      have hm := mayCall_iff.mp hm
      split at h
      · cases h
      · rename_i q es hq
        cases h
        refine ⟨Or.inr ⟨_, _, hq, ?_⟩, Or.inl rfl⟩
        intro d hd hl
        cases hl
        rcases Nat.lt_or_ge t n with hh | hh
        · exact Or.inr hh
        · have := hm.2.2 hh; rw [hd] at this; cases this
    · cases h
  | destroyNotify =>
    simp only at h
    split at h
    · rename_i d hd
      split at h
      · cases h
      · rename_i q es hq
        cases h
        exact ⟨Or.inr ⟨_, _, hq, fun d' hd' hl => by cases hl; exact Or.inl rfl⟩, Or.inr (Or.inr (Or.inr (Or.inr ⟨d, _, rfl, hq⟩)))⟩
    · cases h
  | _ =>
    simp only [queue] at h
    repeat' split at h
    all_goals cases h
    all_goals grind

theorem ok_step (hm : c.monotone = true) {s s' : State} {l : Label} {es : List Event} (h : Ok c n s) (hs : step c n s l = some (s', es)) : Ok c n s' := by
  obtain ⟨b, hb⟩ := h.rel
  obtain ⟨h1, h2⟩ := queue_moves hs
  have hI := hb.sim.2.1
  have keep : Awake s.q → Awake s'.q := by
    intro ha
    rcases h1 with h1 | ⟨ql, qes, h1, -⟩
    · rw [h1]; exact ha
    · exact awake_step hI ha h1
  refine ⟨?_, ?_, ?_, ?_⟩
  · obtain ⟨b', -, h'⟩ := follows_some (sim (ub := false) (Or.inr hm) s l s' es b hb hs)
    exact ⟨b', h'⟩
  · intro d k hdk
    rcases h2 with h2 | h2 | ⟨d', k', h2, -⟩ | ⟨d', qes, h2, -⟩ | ⟨d', qes, -, h2⟩
    · exact keep (h.awake d k (h2 ▸ hdk))
    · rw [hdk] at h2; cases h2
    · exact keep (h.awake d' k' h2)
    · rw [hdk] at h2; cases h2
    · exact awake_close hI h2
  · intro d hdk
    rcases h2 with h2 | h2 | ⟨d', k', -, h2, -⟩ | ⟨d', qes, h2, hn, h3⟩ | ⟨d', qes, h2, -⟩
    · rw [hdk] at h2
      obtain ⟨h3, h4⟩ := h.clos d h2.symm
      refine ⟨h3, ?_⟩
      rcases h1 with h1 | ⟨ql, qes, h1, h5⟩
      · rw [h1]; exact h4
      · refine keeps_closing h1 h4 fun hl => ?_
        rcases h5 d h2.symm hl with h6 | h6
        · rw [hdk] at h6; cases h6
        · omega
    · rw [hdk] at h2; cases h2
    · rw [hdk] at h2; cases h2
    · rw [hdk] at h2; cases h2
      refine ⟨hn, ?_⟩
      simp only [TimedQueue.step] at h3
      split at h3
      · rename_i ht
        simp only [Option.some.injEq, Prod.mk.injEq] at h3
        rw [← h3.1]
        simp only [List.getElem?_set]
        have : d < s.q.ts.length := by
          rcases Nat.lt_or_ge d s.q.ts.length with hh | hh
          · exact hh
          · rw [List.getElem?_eq_none hh] at ht; cases ht
        simp [this]
      · cases h3
    · rw [hdk] at h2; cases h2
  · intro d k hdk
    rcases h2 with h2 | h2 | ⟨d', k', h4, h2, h3⟩ | ⟨d', qes, h2, hn, h3⟩ | ⟨d', qes, h2, -⟩
    · exact h.upto d k (h2 ▸ hdk)
    · rw [hdk] at h2; cases h2
    · rw [hdk] at h2; cases h2; omega
    · rw [hdk] at h2; cases h2
    · rw [hdk] at h2; cases h2; omega

theorem ok_run (hm : c.monotone = true) {s s' : State} {ls : List Label} {es : List Event} (h : Ok c n s) (hs : run (step c n) s ls = some (s', es)) : Ok c n s' :=
  run_inv (Ok c n) (fun _ _ _ _ h hs => ok_step hm h hs) h hs

theorem ok_init (m : Nat) (now steady : Int) : Ok c n (init n m now steady) := ⟨⟨_, init_rel m now steady⟩, (by intro d k h; cases h), (by intro d h; cases h), (by intro d k h; cases h)⟩

/-! ## Taking work -/

theorem pop_exists {s : TimedQueue.State Work} {t : Nat} {now : Int} (h : TimedQueue.reached s now = true) :
    ∃ i q' v due, TimedQueue.pop s t i now = some (q', [.pulled t v due now]) ∧ q'.data.length < s.data.length := by
  cases htop : TimedQueue.topTime s.data with
  | none => simp [TimedQueue.reached, htop] at h
  | some m =>
    obtain ⟨⟨y, hy, hym⟩, hmin⟩ := TimedQueue.topTime_some htop
    obtain ⟨i, hi⟩ := List.getElem?_of_mem hy
    refine ⟨i, _, y.1, y.2, by simp only [TimedQueue.pop, hi, htop, hym, if_true]; rfl, ?_⟩
    have := (TimedQueue.perm_eraseIdx hi).length_eq
    simp only [List.length_cons] at this
    simp only
    omega

theorem readClock_now {s : TimedQueue.State Work} {now : Int} (h : s.now ≤ now) : TimedQueue.readClock c s now = some { s with now } := by
  simp only [TimedQueue.readClock]
  rw [if_neg]
  omega

/-- A test of the loop finds what is due. -/
theorem check_due {s : TimedQueue.State Work} {t : Nat} {now dead : Int} {cont : Nat → TimedQueue.State Work → Option (TimedQueue.State Work × List (TimedQueue.Event Work))} (hn : s.now ≤ now) (h : TimedQueue.reached s now = true) :
    ∃ i q' v due, TimedQueue.check c s t .status i now dead (cont i) = some (q', [.pulled t v due now]) ∧ q'.data.length < s.data.length := by
  obtain ⟨i, q', v, due, h1, h2⟩ := pop_exists (s := { s with now }) (t := t) (now := now) h
  refine ⟨i, q', v, due, ?_, h2⟩
  simp only [TimedQueue.check, readClock_now hn]
  rw [if_pos (by exact h)]
  exact h1

/-- A test of the loop on a closed queue ends the pull. -/
theorem check_closed {s : TimedQueue.State Work} {t : Nat} {dead : Int} {cont : Nat → TimedQueue.State Work → Option (TimedQueue.State Work × List (TimedQueue.Event Work))} (hc : s.closed = true) :
    ∃ i q' es, TimedQueue.check c s t .status i s.now dead (cont i) = some (q', es) ∧
      ((es = [.closedPull t s.now] ∧ q'.data = s.data) ∨ (∃ v due, es = [.pulled t v due s.now]) ∧ q'.data.length < s.data.length) := by
  cases hr : TimedQueue.reached s s.now with
  | true =>
    obtain ⟨i, q', v, due, h1, h2⟩ := check_due (c := c) (t := t) (dead := dead) (cont := cont) (Int.le_refl _) hr
    exact ⟨i, q', _, h1, Or.inr ⟨⟨v, due, rfl⟩, h2⟩⟩
  | false =>
    refine ⟨0, { s with ts := s.ts.set t .idle }, [.closedPull t s.now], ?_, Or.inl ⟨rfl, rfl⟩⟩
    simp only [TimedQueue.check, readClock_now (Int.le_refl _)]
    rw [if_neg (by simp [show TimedQueue.reached { s with now := s.now } s.now = false from hr])]
    simp [hc]

/-- Reads of the clock that all give the same value. -/
def at_ (now : Int) : Reads := ⟨now, now, now, now, now⟩

theorem first_due {s : TimedQueue.State Work} {t : Nat} {now : Int} (hn : s.now ≤ now) (h : TimedQueue.reached s now = true) :
    ∃ i q' v due, TimedQueue.first c s t .status i (at_ now) = some (q', [.pulled t v due now]) := by
  obtain ⟨i, q', v, due, h1, -⟩ := check_due (c := c) (t := t) (dead := now) (cont := fun i s =>
    if s.data.isEmpty && !s.closed then some ({ s with ts := s.ts.set t (.asleepEmpty .status) }, []) else TimedQueue.second c s t .status i (at_ now)) hn h
  exact ⟨i, q', v, due, h1⟩

theorem second_due {s : TimedQueue.State Work} {t : Nat} {now : Int} (hn : s.now ≤ now) (h : TimedQueue.reached s now = true) :
    ∃ i q' v due, TimedQueue.second c s t .status i (at_ now) = some (q', [.pulled t v due now]) ∧ q'.data.length < s.data.length := by
  unfold TimedQueue.second
  exact check_due (cont := fun _ => _) hn h

theorem first_closed {s : TimedQueue.State Work} {t : Nat} (hc : s.closed = true) :
    ∃ i q' es, TimedQueue.first c s t .status i (at_ s.now) = some (q', es) ∧
      ((es = [.closedPull t s.now] ∧ q'.data = s.data) ∨ (∃ v due, es = [.pulled t v due s.now]) ∧ q'.data.length < s.data.length) := by
  obtain ⟨i, q', es, h1, h2⟩ := check_closed (c := c) (t := t) (dead := s.now) (cont := fun i s1 =>
    if s1.data.isEmpty && !s1.closed then some ({ s1 with ts := s1.ts.set t (.asleepEmpty .status) }, []) else TimedQueue.second c s1 t .status i (at_ s.now)) hc
  exact ⟨i, q', es, h1, h2⟩

theorem second_closed {s : TimedQueue.State Work} {t : Nat} (hc : s.closed = true) :
    ∃ i q' es, TimedQueue.second c s t .status i (at_ s.now) = some (q', es) ∧
      ((es = [.closedPull t s.now] ∧ q'.data = s.data) ∨ (∃ v due, es = [.pulled t v due s.now]) ∧ q'.data.length < s.data.length) := by
  unfold TimedQueue.second
  exact check_closed (cont := fun _ => _) hc

theorem step_fetch {s : State} {w i : Nat} {r : Reads} {q' : TimedQueue.State Work} {es} (hd : s.dead = false) (hw : s.w w = .fetch)
    (hq : TimedQueue.step c s.q (.pull w .status r i) = some (q', es)) :
    step c n s (.fetch w r i) = some ({ s with q := q', w := upd s.w w (after .fetch es) }, es.flatMap lift) := by
  simp [step, hd, hw, queue, hq]

theorem step_resume {s : State} {w i : Nat} {r : Reads} {q' : TimedQueue.State Work} {es} (hd : s.dead = false) (hw : s.w w = .fetch)
    (hq : TimedQueue.step c s.q (.resume w r i) = some (q', es)) :
    step c n s (.resume w r i) = some ({ s with q := q', w := upd s.w w (after .fetch es) }, es.flatMap lift) := by
  simp [step, hd, hw, queue, hq]

theorem step_timeout {s : State} {w : Nat} {r : Int} {q' : TimedQueue.State Work} (hd : s.dead = false) (hw : s.w w = .fetch)
    (hq : TimedQueue.step c s.q (.timeout w r) = some (q', [])) :
    step c n s (.timeout w r) = some ({ s with q := q' }, []) := by
  simp only [step, hd, hw, queue, hq, Bool.false_eq_true, if_false, if_true, after, List.flatMap_nil]
  rw [← hw, upd_self]

/-- A label of worker `w` inside `wait_pull`. -/
def Label.pullBy (w : Nat) : Label → Prop
  | .fetch u _ _ => u = w
  | .resume u _ _ => u = w
  | .timeout u _ => u = w
  | _ => False

theorem due_starts {s : State} {b : Book} {w : Nat} {now : Int} {x : Work × Int} (h : Rel c n s b) (hd : s.dead = false) (hw : s.w w = .fetch)
    (hx : x ∈ b.pending) (hdue : x.2 ≤ now) (hn : s.q.now ≤ now) :
    ∃ ls s' v due, run (step c n) s ls = some (s', [.started w v due now]) ∧ ls.length ≤ 2 ∧ ∀ l ∈ ls, l.pullBy w := by
  have hx' : x ∈ s.q.data := h.sim.1.1.mem_iff.mpr hx
  have hI := h.sim.2.1
  obtain ⟨p, hp⟩ : ∃ p, s.q.ts[w]? = some p := by
    have := h.inc w (by simp [hw])
    exact ⟨_, List.getElem?_eq_getElem this⟩
  have hpc := h.pcs w p hp
  rw [hw] at hpc
  have hr : ∀ q : TimedQueue.State Work, q.data = s.q.data → TimedQueue.reached q now = true := fun q hq =>
    TimedQueue.reached_iff.mpr ⟨x, by rw [hq]; exact hx', hdue⟩
  have one : ∀ {l q' v due}, step c n s l = some (q', [.started w v due now]) → Label.pullBy w l →
      ∃ ls s' v due, run (step c n) s ls = some (s', [.started w v due now]) ∧ ls.length ≤ 2 ∧ ∀ l ∈ ls, l.pullBy w := by
    intro l q' v due hl hb
    exact ⟨[l], q', v, due, by simp [run, hl], by simp, by simpa using hb⟩
  cases p with
  | idle =>
    obtain ⟨i, q', v, due, h1⟩ := first_due (c := c) (s := s.q) (t := w) hn (hr _ rfl)
    exact one (step_fetch (es := [.pulled w v due now]) hd hw (i := i) (r := at_ now) (by simp only [TimedQueue.step, hp]; exact h1)) rfl
  | wokenTimed k =>
    simp only [PcOk, Waiting, reduceCtorEq, false_or] at hpc; subst hpc
    obtain ⟨i, q', v, due, h1⟩ := first_due (c := c) (s := s.q) (t := w) hn (hr _ rfl)
    exact one (step_resume (es := [.pulled w v due now]) hd hw (i := i) (r := at_ now) (by simp only [TimedQueue.step, hp]; exact h1)) rfl
  | wokenEmpty k =>
    simp only [PcOk, Waiting, reduceCtorEq, false_or] at hpc; subst hpc
    obtain ⟨i, q', v, due, h1, -⟩ := second_due (c := c) (s := s.q) (t := w) hn (hr _ rfl)
    refine one (step_resume (es := [.pulled w v due now]) hd hw (i := i) (r := at_ now) (q' := q') ?_) rfl
    simp only [TimedQueue.step, hp]
    rw [if_neg]
    · exact h1
    · have : s.q.data ≠ [] := by intro h0; rw [h0] at hx'; cases hx'
      simp [this]
  | asleepEmpty k =>
    have : s.q.data = [] := hI w _ hp
    rw [this] at hx'; cases hx'
  | asleepTimed k o =>
    cases o with
    | none => simp [PcOk, Waiting] at hpc
    | some u =>
      simp only [PcOk, Waiting, reduceCtorEq, false_or] at hpc
      obtain ⟨rfl, -⟩ := hpc
      have hu : u ≤ x.2 := hI w _ hp x hx'
      have hun : u ≤ now := by omega
      have hlen := h.inc w (by simp [hw])
      have h1 : TimedQueue.step c s.q (.timeout w now) = some ({ s.q with now, ts := s.q.ts.set w (.wokenTimed .status) }, []) := by
        simp only [TimedQueue.step, hp, readClock_now hn, hun, if_true]
      have h2 := step_timeout (n := n) hd hw h1
      obtain ⟨i, q', v, due, h3⟩ := first_due (c := c) (s := { s.q with now, ts := s.q.ts.set w (.wokenTimed .status) }) (now := now) (t := w) (Int.le_refl _) (hr _ rfl)
      have h4 := step_resume (n := n) (s := { s with q := { s.q with now, ts := s.q.ts.set w (.wokenTimed .status) } }) hd hw (i := i) (r := at_ now) (q' := q') (w := w)
        (es := [.pulled w v due now]) (by
          simp only [TimedQueue.step, List.getElem?_set, hlen, if_true]
          exact h3)
      exact ⟨[.timeout w now, .resume w (at_ now) i], _, v, due, run_step h2 (run_step h4 run_nil), by simp, by simp [Label.pullBy]⟩
  | expired k => simp [PcOk, Waiting] at hpc
  | closing => simp [PcOk, Waiting] at hpc

/-! ## Ending -/

/-- What a step or a run of worker `w` leaves alone. -/
structure Same (w : Nat) (s s' : State) : Prop where
  others : ∀ u, u ≠ w → s'.w u = s.w u
  dtor : s'.dtor = s.dtor
  dead : s'.dead = s.dead
  ex : s'.exClosed = s.exClosed

theorem Same.trans {w : Nat} {s s' s'' : State} (h : Same w s s') (h' : Same w s' s'') : Same w s s'' :=
  ⟨fun u hu => (h'.others u hu).trans (h.others u hu), h'.dtor.trans h.dtor, h'.dead.trans h.dead, h'.ex.trans h.ex⟩

/-- On a closed queue a worker that looks for work gets some or leaves. -/
theorem fetch_closed {s : State} {w d k : Nat} (h : Ok c n s) (hd : s.dead = false) (hw : s.w w = .fetch) (hdt : s.dtor = .intr d k) :
    ∃ l s' es, step c n s l = some (s', es) ∧ Same w s s' ∧
      ((s'.w w = .left ∧ s'.q.data = s.q.data) ∨ ((∃ v, s'.w w = .busy v) ∧ s'.q.data.length < s.q.data.length)) := by
  obtain ⟨b, hb⟩ := h.rel
  obtain ⟨hc, hns⟩ := h.awake d k hdt
  obtain ⟨p, hp⟩ : ∃ p, s.q.ts[w]? = some p := by
    have := hb.inc w (by simp [hw])
    exact ⟨_, List.getElem?_eq_getElem this⟩
  have hpc := hb.pcs w p hp
  rw [hw] at hpc
  have fin : ∀ {l q' es}, step c n s l = some ({ s with q := q', w := upd s.w w (after .fetch es) }, es.flatMap lift) →
      ((es = [.closedPull w s.q.now] ∧ q'.data = s.q.data) ∨ (∃ v due, es = [.pulled w v due s.q.now]) ∧ q'.data.length < s.q.data.length) →
      ∃ l s' es, step c n s l = some (s', es) ∧ Same w s s' ∧
      ((s'.w w = .left ∧ s'.q.data = s.q.data) ∨ ((∃ v, s'.w w = .busy v) ∧ s'.q.data.length < s.q.data.length)) := by
    intro l q' es hl ho
    refine ⟨l, _, _, hl, ⟨fun u hu => by simp [upd, hu], rfl, rfl, rfl⟩, ?_⟩
    rcases ho with ⟨rfl, ho⟩ | ⟨⟨v, due, rfl⟩, ho⟩
    · exact Or.inl ⟨by simp [upd, after], ho⟩
    · exact Or.inr ⟨⟨v, by simp [upd, after]⟩, ho⟩
  cases p with
  | idle =>
    obtain ⟨i, q', es, h1, h2⟩ := first_closed (c := c) (s := s.q) (t := w) hc
    exact fin (step_fetch hd hw (i := i) (r := at_ s.q.now) (by simp only [TimedQueue.step, hp]; exact h1)) h2
  | wokenTimed k =>
    simp only [PcOk, Waiting, reduceCtorEq, false_or] at hpc; subst hpc
    obtain ⟨i, q', es, h1, h2⟩ := first_closed (c := c) (s := s.q) (t := w) hc
    exact fin (step_resume hd hw (i := i) (r := at_ s.q.now) (by simp only [TimedQueue.step, hp]; exact h1)) h2
  | wokenEmpty k =>
    simp only [PcOk, Waiting, reduceCtorEq, false_or] at hpc; subst hpc
    obtain ⟨i, q', es, h1, h2⟩ := second_closed (c := c) (s := s.q) (t := w) hc
    refine fin (step_resume hd hw (i := i) (r := at_ s.q.now) (q' := q') ?_) h2
    simp only [TimedQueue.step, hp]
    rw [if_neg (by simp [hc])]
    exact h1
  | asleepEmpty k => have := cnt_pos (f := PC.isAsleep) hp rfl; omega
  | asleepTimed k o => have := cnt_pos (f := PC.isAsleep) hp rfl; omega
  | expired k => simp [PcOk, Waiting] at hpc
  | closing => simp [PcOk, Waiting] at hpc

theorem step_finish {s : State} {w : Nat} {v : Work} (hd : s.dead = false) (he : s.exClosed = false) (hc : inClosure s w = some v) :
    ∃ es, step c n s (.finish w) = some ({ s with w := upd s.w w .fetch }, es) := by
  cases v <;> simp [step, hd, hc, he]

/-- On a closed queue, a closure that returns takes its worker back to looking for work. -/
theorem busy_returns {s : State} {w d k : Nat} {v : Work} (h : Ok c n s) (hd : s.dead = false) (he : s.exClosed = false) (hw : s.w w = .busy v)
    (hdt : s.dtor = .intr d k) :
    ∃ ls s' es, run (step c n) s ls = some (s', es) ∧ Same w s s' ∧ s'.w w = .fetch ∧ s'.q.data = s.q.data := by
  obtain ⟨b, hb⟩ := h.rel
  obtain ⟨hc, hns⟩ := h.awake d k hdt
  have hwn : w < n := by
    rcases Nat.lt_or_ge w n with hh | hh
    · exact hh
    · have := hb.wlt w hh; rw [hw] at this; cases this
  obtain ⟨p, hp⟩ : ∃ p, s.q.ts[w]? = some p := by
    have := hb.inc w (by simp [hw])
    exact ⟨_, List.getElem?_eq_getElem this⟩
  have hpc := hb.pcs w p hp
  rw [hw] at hpc
  have other : ∀ f : Nat → Worker, ∀ x, ∀ u, u ≠ w → upd f w x u = f u := fun f x u hu => by simp [upd, hu]
  cases hv : s.via w with
  | some y =>
    obtain ⟨v', due⟩ := y
    have hi := (hb.via w (by simp [hv])).1
    have h1 : step c n s (.push w) = some ({ s with via := upd s.via w none }, [.refused w v' false]) := by
      simp only [step, hd, hv, Bool.false_eq_true, if_false]
      rw [if_pos (Or.inl hwn)]
      simp [queue, TimedQueue.step, hi, hc, after, upd_self, lift]
    obtain ⟨es2, h2⟩ := step_finish (c := c) (n := n) (s := { s with via := upd s.via w none }) (w := w) (v := v) hd he
      (inClosure_iff.mpr ⟨hw, by simp [upd], hi⟩)
    exact ⟨_, _, _, run_step h1 (run_step h2 run_nil), ⟨other _ _, rfl, rfl, rfl⟩, by simp [upd], rfl⟩
  | none =>
    rcases hpc with rfl | rfl
    · obtain ⟨es2, h2⟩ := step_finish (c := c) (n := n) (s := s) (w := w) (v := v) hd he (inClosure_iff.mpr ⟨hw, hv, hp⟩)
      exact ⟨_, _, _, run_step h2 run_nil, ⟨other _ _, rfl, rfl, rfl⟩, by simp [upd], rfl⟩
    · have hlen := hb.inc w (by simp [hw])
      have hm : mayCall n s w = true := by simp [mayCall, hv, hwn, hw]
      have h1 : step c n s (.closeNotify w) = some ({ s with q := { s.q with ts := (s.q.ts.set w .idle).map PC.wake } }, [.closeReturned w]) := by
        simp [step, hd, hm, queue, TimedQueue.step, hp, after, upd_self, lift]
      obtain ⟨es2, h2⟩ := step_finish (c := c) (n := n) (s := { s with q := { s.q with ts := (s.q.ts.set w .idle).map PC.wake } }) (w := w) (v := v) hd he
        (inClosure_iff.mpr ⟨hw, hv, map_idle (by simp [hlen])⟩)
      exact ⟨_, _, _, run_step h1 (run_step h2 run_nil), ⟨other _ _, rfl, rfl, rfl⟩, by simp [upd], rfl⟩

/-- One worker leaves. -/
theorem worker_leaves (hm : c.monotone = true) (w d k : Nat) : ∀ (m : Nat) (s : State), s.q.data.length ≤ m → Ok c n s → s.dead = false → s.exClosed = false →
    s.dtor = .intr d k → ∃ ls s' es, run (step c n) s ls = some (s', es) ∧ Same w s s' ∧ s'.w w = .left := by
  have go : ∀ (m : Nat), (∀ s : State, s.q.data.length < m → Ok c n s → s.dead = false → s.exClosed = false →
      s.dtor = .intr d k → ∃ ls s' es, run (step c n) s ls = some (s', es) ∧ Same w s s' ∧ s'.w w = .left) →
      ∀ s : State, s.q.data.length ≤ m → Ok c n s → s.dead = false → s.exClosed = false →
      s.dtor = .intr d k → s.w w = .fetch → ∃ ls s' es, run (step c n) s ls = some (s', es) ∧ Same w s s' ∧ s'.w w = .left := by
    intro m ih s hl h hd he hdt hw
    obtain ⟨l, s1, e1, h1, hs1, ho⟩ := fetch_closed h hd hw hdt
    rcases ho with ⟨ho, -⟩ | ⟨-, ho⟩
    · exact ⟨[l], s1, _, run_step h1 run_nil, hs1, ho⟩
    · obtain ⟨ls, s', es, h2, hs2, h3⟩ := ih s1 (by omega) (ok_step hm h h1) (hs1.dead.trans hd) (hs1.ex.trans he) (hs1.dtor.trans hdt)
      exact ⟨l :: ls, s', _, run_step h1 h2, hs1.trans hs2, h3⟩
  intro m
  induction m using Nat.strongRecOn with
  | ind m ih =>
    intro s hl h hd he hdt
    have ih' : ∀ s : State, s.q.data.length < m → Ok c n s → s.dead = false → s.exClosed = false →
      s.dtor = .intr d k → ∃ ls s' es, run (step c n) s ls = some (s', es) ∧ Same w s s' ∧ s'.w w = .left :=
      fun s hs => ih s.q.data.length hs s (Nat.le_refl _)
    cases hw : s.w w with
    | left => exact ⟨[], s, [], run_nil, ⟨fun _ _ => rfl, rfl, rfl, rfl⟩, hw⟩
    | fetch => exact go m ih' s hl h hd he hdt hw
    | busy v =>
      obtain ⟨ls, s1, e1, h1, hs1, hw1, hdat⟩ := busy_returns h hd he hw hdt
      obtain ⟨ls2, s2, e2, h2, hs2, hw2⟩ := go m ih' s1 (by rw [hdat]; exact hl) (ok_run hm h h1) (hs1.dead.trans hd) (hs1.ex.trans he) (hs1.dtor.trans hdt) hw1
      exact ⟨_, s2, _, run_append h1 h2, hs1.trans hs2, hw2⟩

theorem all_leave (hm : c.monotone = true) (d k : Nat) : ∀ (m : Nat) (s : State), Ok c n s → s.dead = false → s.exClosed = false →
    s.dtor = .intr d k → ∃ ls s' es, run (step c n) s ls = some (s', es) ∧ s'.dtor = .intr d k ∧ s'.dead = false ∧ (∀ w < m, s'.w w = .left) ∧ ∀ w, m ≤ w → s'.w w = s.w w := by
  intro m
  induction m with
  | zero => intro s h hd he hdt; exact ⟨[], s, [], run_nil, hdt, hd, by simp, fun _ _ => rfl⟩
  | succ m ih =>
    intro s h hd he hdt
    obtain ⟨ls, s1, es, h1, hs1, hw⟩ := worker_leaves hm m d k _ s (Nat.le_refl _) h hd he hdt
    obtain ⟨ls2, s2, es2, h2, hdt2, hd2, hall, hrest⟩ := ih s1 (ok_run hm h h1) (hs1.dead.trans hd) (hs1.ex.trans he) (hs1.dtor.trans hdt)
    refine ⟨_, s2, _, run_append h1 h2, hdt2, hd2, ?_, ?_⟩
    · intro w hwm
      rcases Nat.lt_or_ge w m with hh | hh
      · exact hall w hh
      · have : w = m := by omega
        subst this
        rw [hrest w hh, hw]
    · intro w hwm
      rw [hrest w (by omega), hs1.others w (by omega)]

/-- The destructor has done everything but wait for the workers: it can return. -/
theorem join_returns (hm : c.monotone = true) {d : Nat} {s : State} (h : Ok c n s) (hd : s.dead = false) (he : s.exClosed = false) (hdt : s.dtor = .intr d n) :
    ∃ ls s' es, run (step c n) s ls = some (s', es ++ [.destroyed d]) := by
  obtain ⟨ls, s1, es, h1, hdt1, hd1, hall, -⟩ := all_leave hm d n n s h hd he hdt
  have h2 : step c n s1 .join = some ({ s1 with dtor := .gone }, [.destroyed d]) := by
    simp only [step, hd1, hdt1, Bool.false_eq_true, if_false]
    rw [if_pos (by simpa using hall)]
  exact ⟨_, _, _, run_append h1 (run_step h2 run_nil)⟩

/-- The destructor can send the interruptions that are left. -/
theorem interrupts {d : Nat} : ∀ (m k : Nat) (s : State), k + m = n → s.dead = false → s.dtor = .intr d k →
    ∃ ls s' es, run (step c n) s ls = some (s', es) ∧ s'.dtor = .intr d n ∧ s'.dead = false ∧ s'.exClosed = s.exClosed := by
  intro m
  induction m with
  | zero => intro k s hk hd hdt; exact ⟨[], s, [], run_nil, by rw [hdt]; congr, hd, rfl⟩
  | succ m ih =>
    intro k s hk hd hdt
    have h1 : step c n s .interruptNext = some ({ s with dtor := .intr d (k + 1), intr := upd s.intr k true }, [.interrupted k]) := by
      simp only [step, hd, hdt, Bool.false_eq_true, if_false]
      rw [if_pos (by omega)]
    obtain ⟨ls, s', es, h2, h3, h4, h5⟩ := ih (k + 1) { s with dtor := .intr d (k + 1), intr := upd s.intr k true } (by omega) hd rfl
    exact ⟨_, s', _, run_step h1 h2, h3, h4, h5⟩

/-- Once the destructor has begun, it can return, if closures return and the executor they use takes their work. -/
theorem dtor_returns (hm : c.monotone = true) {s : State} (h : Ok c n s) (hd : s.dead = false) (he : s.exClosed = false) (h1 : s.dtor ≠ .none) (h2 : s.dtor ≠ .gone) :
    ∃ d ls s' es, run (step c n) s ls = some (s', es ++ [.destroyed d]) := by
  have fromIntr : ∀ {d k : Nat} {s : State}, Ok c n s → s.dead = false → s.exClosed = false → s.dtor = .intr d k →
      ∃ d ls s' es, run (step c n) s ls = some (s', es ++ [.destroyed d]) := by
    intro d k s h hd he hdt
    obtain ⟨ls, s1, e1, r1, d1, dd1, ee1⟩ := interrupts (c := c) (n := n) (d := d) (n - k) k s (by have := h.upto d k hdt; omega) hd hdt
    obtain ⟨ls2, s2, e2, r2⟩ := join_returns hm (ok_run hm h r1) dd1 (ee1.trans he) d1
    exact ⟨d, _, s2, e1 ++ e2, by rw [List.append_assoc]; exact run_append r1 r2⟩
  cases hdt : s.dtor with
  | none => exact absurd hdt h1
  | gone => exact absurd hdt h2
  | intr d k => exact fromIntr h hd he hdt
  | closing d =>
    obtain ⟨-, hc⟩ := h.clos d hdt
    have hst : step c n s .destroyNotify = some ({ s with q := { s.q with ts := (s.q.ts.set d .idle).map PC.wake }, dtor := .intr d 0 }, [.closeReturned d]) := by
      simp [step, hd, hdt, TimedQueue.step, hc, lift]
    obtain ⟨d', ls, s', es, r⟩ := fromIntr (ok_step hm h hst) hd he rfl
    exact ⟨d', _, s', _, by
      have := run_step hst r
      rw [← List.append_assoc] at this
      exact this⟩

end Verif.Scheduler
