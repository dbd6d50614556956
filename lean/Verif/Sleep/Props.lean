import Verif.Sleep.Spec
import Verif.TimedWait.Props
/-!
# C54: sleeping does not end early
-/

set_option linter.unusedSimpArgs false

namespace Verif.Sleep

open TimedWait (Dur inRange)

/-- `nanosleep` until `due` is long enough. -/
def Enough (q : SState) (due : Int) : Call → Prop
  | .quietFor d => q.began + d ≤ due
  | .quietUntilSteady t => t ≤ due
  | _ => False

def PcOk (q : SState) (p : TimedWait.SState) (tw : TimedWait.PC) : PC → Prop
  | .idle => q.call = none ∧ tw = .idle
  | .waiting => (∃ c w, q.call = some c ∧ c.wait? = some w ∧ p.call = some w) ∧ tw ≠ .idle
  | .begin c => q.call = some c ∧ c.wait? = none ∧ tw = .idle
  | .nap due none => tw = .idle ∧ ∃ c, q.call = some c ∧ Enough q due c
  | .nap _ (some t) => tw = .idle ∧ q.call = some (.quietUntil t)
  | .look t => tw = .idle ∧ q.call = some (.quietUntil t)

structure Rel (s : State) (q : SState) : Prop where
  ex : ∃ p, TimedWait.R s.tw p ∧ p.pred = false ∧ (s.pc = .waiting → p.began = q.began ∧ p.maxUser = q.maxUser ∧ p.minUser = q.minUser) ∧ PcOk q p s.tw.pc s.pc
  now : q.now = s.tw.now
  user : q.user = s.tw.user
  lo : q.minUser ≤ q.user
  hi : q.user ≤ q.maxUser
  beg : q.began ≤ q.now

theorem tw_events {s s' : TimedWait.State} {l : TimedWait.Label} {es : List TimedWait.Event} (hl : l = .go ∨ l = .wake ∨ l = .expire)
    (h : TimedWait.step s l = some (s', es)) :
    (es = [] ∨ es = [.released] ∨ es = [.acquired] ∨ ∃ r, es = [.returned r]) ∧ s'.now = s.now ∧ s'.user = s.user := by
  rcases hl with rfl | rfl | rfl
  · simp only [TimedWait.step, TimedWait.go] at h
    (repeat' (split at h)) <;> (try simp only [TimedWait.start] at h) <;> (repeat' (split at h)) <;>
      (try simp only [TimedWait.goto, TimedWait.ret] at h) <;> cases h <;> simp
  · simp only [TimedWait.step] at h; split at h <;> cases h <;> simp
  · simp only [TimedWait.step] at h; split at h
    · split at h <;> cases h <;> simp
    · cases h

theorem ok_idle {q : TimedWait.SState} {p : TimedWait.PC} (h : TimedWait.Ok q p) : p = .idle ↔ q.call = none := by
  cases p <;> simp [TimedWait.Ok] at h ⊢
  · exact h.1
  · simp [h.1]
  all_goals (try (obtain ⟨c, h, -⟩ := h; simp [h]))
  · rename_i ts k; cases ts <;> (obtain ⟨c, h, -⟩ := h; simp [h])
  · rename_i ts k; cases ts <;> (obtain ⟨c, h, -⟩ := h; simp [h])

theorem wait_shape {c : Call} {w : TimedWait.Call} (h : c.wait? = some w) : TimedWait.shapeOf w = .val := by
  cases c <;> simp only [Call.wait?, Option.some.injEq] at h <;> cases h <;> rfl

/-- The timed wait and the sleep agree about when the time is over. -/
theorem wait_over {q : SState} {p : TimedWait.SState} {c : Call} {w : TimedWait.Call} (h : c.wait? = some w) (hn : p.now = q.now) (hb : p.began = q.began)
    (hm : p.maxUser = q.maxUser) : p.passed w = q.over c := by
  cases c with
  | sleepUntil i t => cases i <;> cases h <;> simp [TimedWait.SState.passed, TimedWait.dueOf, SState.over, hn, hm]
  | sleepFor d => cases h; simp [TimedWait.SState.passed, TimedWait.dueOf, SState.over, hn, hb]
  | sleepRel d => cases d <;> cases h <;> simp [TimedWait.SState.passed, TimedWait.dueOf, SState.over, hn, hb]
  | _ => cases h

theorem wait_extreme {q : SState} {p : TimedWait.SState} {c : Call} {w : TimedWait.Call} (h : c.wait? = some w) (hn : p.now = q.now) (hb : p.began = q.began)
    (hm : p.maxUser = q.maxUser) (hi : p.minUser = q.minUser) : p.extreme w = q.extreme c := by
  cases c with
  | sleepUntil i t => cases i <;> cases h <;> simp [TimedWait.SState.extreme, TimedWait.dueOf, SState.extreme, hn, hm, hb, hi]
  | sleepFor d => cases h; simp [TimedWait.SState.extreme, TimedWait.dueOf, SState.extreme, hn, hb]
  | sleepRel d => cases d <;> cases h <;> simp [TimedWait.SState.extreme, TimedWait.dueOf, SState.extreme, hn, hb]
  | _ => cases h

theorem waitStep_follows {s s' : State} {q : SState} {l : TimedWait.Label} {es : List Event} (R : Rel s q) (hl : l = .go ∨ l = .wake ∨ l = .expire)
    (h : waitStep s l = some (s', es)) : Follows (next false) (Rel s') q es := by
  simp only [waitStep] at h
  split at h
  case isFalse => cases h
  rename_i hp
  split at h
  case h_2 => cases h
  rename_i tw' es' hs
  cases h
  obtain ⟨⟨p, R1, R2, R3, R4⟩, R5, R6, R7, R8, R9⟩ := R
  rw [hp] at R4
  obtain ⟨⟨c, w, h1, h2, h3⟩, h4⟩ := R4
  obtain ⟨i1, i2, i3⟩ := R3 hp
  obtain ⟨he, hn, hu⟩ := tw_events hl hs
  have hF := TimedWait.sim_step R1 hs
  rcases he with rfl | rfl | rfl | ⟨r, rfl⟩
  · simp only [Follows, List.flatMap_nil] at hF ⊢
    have hni : ¬ tw'.pc = .idle := by rw [ok_idle hF.ok, h3]; simp
    refine ⟨⟨p, hF, R2, fun _ => ⟨i1, i2, i3⟩, ?_⟩, by simp [hn, R5], by simp [hu, R6], R7, R8, R9⟩
    simp only [hni, if_false]; exact ⟨⟨c, w, h1, h2, h3⟩, hni⟩
  · simp only [Follows, TimedWait.next] at hF
    have hni : ¬ tw'.pc = .idle := by rw [ok_idle hF.ok]; simp [h3]
    simp only [Event.ofWait, List.flatMap_cons, List.flatMap_nil, List.append_nil, Follows]
    refine ⟨⟨_, hF, R2, fun _ => ⟨i1, i2, i3⟩, ?_⟩, by simp [hn, R5], by simp [hu, R6], R7, R8, R9⟩
    simp only [hni, if_false]; exact ⟨⟨c, w, h1, h2, h3⟩, hni⟩
  · simp only [Follows, TimedWait.next] at hF
    have hni : ¬ tw'.pc = .idle := by rw [ok_idle hF.ok]; simp [h3]
    simp only [Event.ofWait, List.flatMap_cons, List.flatMap_nil, List.append_nil, Follows]
    refine ⟨⟨_, hF, R2, fun _ => ⟨i1, i2, i3⟩, ?_⟩, by simp [hn, R5], by simp [hu, R6], R7, R8, R9⟩
    simp only [hni, if_false]; exact ⟨⟨c, w, h1, h2, h3⟩, hni⟩
  · have hov := wait_over h2 (by rw [R1.now, R5]) i1 i2
    have hex := wait_extreme h2 (by rw [R1.now, R5]) i1 i2 i3
    have hsh := wait_shape h2
    simp only [Follows, TimedWait.next, h3] at hF
    cases r with
    | unit => simp [TimedWait.allow, hsh] at hF
    | status b => simp [TimedWait.allow, hsh] at hF
    | val b =>
      simp only [TimedWait.allow] at hF
      split at hF
      · rename_i p' hv
        split at hv <;> cases hv
        rename_i hc
        simp [R2, hsh] at hc
        obtain ⟨⟨-, rfl⟩, hc⟩ := hc
        simp at hc
        have hidle : tw'.pc = .idle := by rw [ok_idle hF.ok]
        simp only [Event.ofWait, List.flatMap_cons, List.flatMap_nil, List.append_nil, Follows, next, h1, ← hov, hc]
        simp only [Bool.true_or, if_true]
        refine ⟨⟨_, hF, R2, by simp [hidle], by simp [hidle, PcOk]⟩, by simp [hn, R5], by simp [hu, R6], R7, R8, R9⟩
      · rename_i hv; split at hv <;> cases hv
      · cases hF
    | threw =>
      simp only [Event.ofWait, List.flatMap_cons, List.flatMap_nil, List.append_nil, Follows, next, h1, ← hex]
      cases hx : p.extreme w <;> simp [hx] at hF ⊢
    | overflow =>
      simp only [Event.ofWait, List.flatMap_cons, List.flatMap_nil, List.append_nil, Follows, next, h1, ← hex]
      cases hx : p.extreme w <;> simp [hx] at hF ⊢

/-- The program counter moves on while the timed wait rests. -/
theorem Rel.goto {s : State} {q : SState} {p : PC} (R : Rel s q) (_ : s.tw.pc = .idle) (hp : ∀ p', PcOk q p' s.tw.pc p) (hw : p ≠ .waiting) : Rel { s with pc := p } q := by
  obtain ⟨⟨p', R1, R2, R3, R4⟩, R5, R6, R7, R8, R9⟩ := R
  exact ⟨⟨p', R1, R2, fun h => absurd h hw, hp p'⟩, R5, R6, R7, R8, R9⟩

theorem done_follows {s : State} {q : SState} {c : Call} (R : Rel s q) (hi : s.tw.pc = .idle) (hc : q.call = some c) (ho : q.over c = true ∨ (c.cut = true ∧ q.hit = true)) :
    Follows (next false) (Rel { s with pc := .idle }) q [.returned] := by
  have : (q.over c || (!false && c.cut && q.hit)) = true := by rcases ho with h | h <;> simp [h]
  simp only [Follows, next, hc, this, if_true]
  obtain ⟨⟨p', R1, R2, R3, R4⟩, R5, R6, R7, R8, R9⟩ := R
  exact ⟨⟨p', R1, R2, by simp, by simp [PcOk, hi]⟩, R5, R6, R7, R8, R9⟩

theorem fail_follows {s : State} {q : SState} {c : Call} (hc : q.call = some c) (ho : q.extreme c = true) :
    Follows (next false) (Rel s) q [.failed .overflow] := by
  simp [Follows, next, hc, ho]

theorem begin_tw {s : State} {q : SState} (R : Rel s q) (hp : s.pc ≠ .waiting) : s.tw.pc = .idle := by
  obtain ⟨⟨p', R1, R2, R3, R4⟩, -⟩ := R
  cases h : s.pc with
  | waiting => exact absurd h hp
  | idle => rw [h] at R4; exact R4.2
  | begin c => rw [h] at R4; exact R4.2.2
  | nap d a => rw [h] at R4; cases a <;> exact R4.1
  | look t => rw [h] at R4; exact R4.1

theorem step_follows {s s' : State} {q : SState} {l : Label} {es : List Event} (R : Rel s q) (h : step s l = some (s', es)) : Follows (next false) (Rel s') q es := by
  cases l with
  | call c =>
    simp only [step] at h
    split at h
    case isFalse => cases h
    rename_i hp
    have htw := begin_tw R (by rw [hp]; simp)
    obtain ⟨⟨p', R1, R2, R3, R4⟩, R5, R6, R7, R8, R9⟩ := R
    rw [hp] at R4
    have hcall : q.call = none := R4.1
    split at h
    · rename_i w hw
      split at h <;> cases h
      rename_i tw' es' hs
      have hF := TimedWait.sim_step R1 hs
      simp only [TimedWait.step] at hs
      split at hs <;> cases hs
      have hpc : p'.call = none := (ok_idle R1.ok).mp htw
      simp only [Follows, TimedWait.next, hpc] at hF
      simp only [Follows, next, hcall]
      refine ⟨⟨_, hF, R2, ?_, ?_⟩, R5, R6, Int.le_refl _, Int.le_refl _, Int.le_refl _⟩
      · intro _; simp [R1.now, R1.user, R5, R6]
      · refine ⟨⟨c, w, rfl, hw, rfl⟩, by simp⟩
    · rename_i hw
      cases h
      simp only [Follows, next, hcall]
      exact ⟨⟨p', R1, R2, by simp, ⟨rfl, hw, htw⟩⟩, R5, R6, Int.le_refl _, Int.le_refl _, Int.le_refl _⟩
  | go =>
    simp only [step] at h
    split at h
    · cases h
    · exact waitStep_follows R (Or.inl rfl) h
    · rename_i d hp
      have htw := begin_tw R (by rw [hp]; simp)
      obtain ⟨p', -, -, -, R4⟩ := R.ex
      rw [hp] at R4
      simp only [sleepForInternal] at h
      split at h
      · cases h
        refine R.goto htw ?_ (by simp)
        intro p'; refine ⟨htw, _, R4.1, ?_⟩
        have := R.beg; have := R.now
        simp only [Enough]; omega
      · cases h
        refine done_follows R htw R4.1 (Or.inl ?_)
        have := R.beg
        simp only [SState.over, decide_eq_true_eq]; omega
    · rename_i t hp
      have htw := begin_tw R (by rw [hp]; simp)
      obtain ⟨p', -, -, -, R4⟩ := R.ex
      rw [hp] at R4
      split at h
      · simp only [sleepForInternal] at h
        split at h
        · cases h
          refine R.goto htw ?_ (by simp)
          intro p'; refine ⟨htw, _, R4.1, ?_⟩
          simp only [Enough]; omega
        · cases h
          refine done_follows R htw R4.1 (Or.inl ?_)
          have := R.now
          simp only [SState.over, decide_eq_true_eq]; omega
      · cases h
        rename_i hr
        refine fail_follows R4.1 ?_
        simp only [SState.extreme, R.now]; simp [hr]
    · rename_i t hp
      have htw := begin_tw R (by rw [hp]; simp)
      obtain ⟨p', -, -, -, R4⟩ := R.ex
      rw [hp] at R4
      cases h
      exact R.goto htw (fun _ => ⟨htw, R4.1⟩) (by simp)
    · cases h
    · rename_i t hp
      have htw := begin_tw R (by rw [hp]; simp)
      obtain ⟨p', -, -, -, R4⟩ := R.ex
      rw [hp] at R4
      have hu := R.user
      have h1 := R.lo
      have h2 := R.hi
      split at h
      · split at h
        · rename_i hpos
          simp only [sleepForInternal] at h
          rw [if_pos (by simp only [TimedWait.poll]; omega)] at h
          cases h
          exact R.goto htw (fun _ => ⟨htw, R4.2⟩) (by simp)
        · cases h
          refine done_follows R htw R4.2 (Or.inl ?_)
          simp only [SState.over, decide_eq_true_eq]; omega
      · cases h
        rename_i hr
        refine fail_follows R4.2 ?_
        simp only [SState.extreme]
        simp only [inRange, decide_eq_true_eq, Bool.or_eq_true, Bool.not_eq_true', decide_eq_false_iff_not] at *
        omega
    · rename_i due again hp
      have htw := begin_tw R (by rw [hp]; simp)
      obtain ⟨p', -, -, -, R4⟩ := R.ex
      rw [hp] at R4
      split at h
      case isFalse => cases h
      rename_i hd
      cases again with
      | some t => cases h; exact R.goto htw (fun _ => R4) (by simp)
      | none =>
        cases h
        obtain ⟨-, c, hc, he⟩ := R4
        refine done_follows R htw hc (Or.inl ?_)
        have := R.now
        cases c <;> simp only [Enough] at he <;> simp only [SState.over, decide_eq_true_eq] <;> omega
  | tick dn user =>
    simp only [step] at h
    split at h <;> cases h
    rename_i tw' es' hs
    obtain ⟨⟨p', R1, R2, R3, R4⟩, R5, R6, R7, R8, R9⟩ := R
    have hF := TimedWait.sim_step R1 hs
    simp only [TimedWait.step] at hs
    cases hs
    simp only [Follows, TimedWait.next] at hF
    simp only [Follows, next]
    refine ⟨⟨_, hF, R2, ?_, ?_⟩, rfl, rfl, by simp; omega, by simp; omega, by simp; omega⟩
    · intro hw
      obtain ⟨i1, i2, i3⟩ := R3 hw
      exact ⟨i1, by simp [i2], by simp [i3]⟩
    · cases hp : s.pc with
      | nap due again => rw [hp] at R4; cases again with
        | none => exact R4
        | some t => exact R4
      | _ => rw [hp] at R4; exact R4
  | wake => exact waitStep_follows R (Or.inr (Or.inl rfl)) h
  | expire => exact waitStep_follows R (Or.inr (Or.inr rfl)) h
  | signal =>
    have hit : Rel s { q with hit := true } := by
      obtain ⟨⟨p', R1, R2, R3, R4⟩, R5, R6, R7, R8, R9⟩ := R
      refine ⟨⟨p', R1, R2, R3, ?_⟩, R5, R6, R7, R8, R9⟩
      cases hp : s.pc with
      | nap due again => rw [hp] at R4; cases again with
        | none =>
          obtain ⟨h1, c, h2, h3⟩ := R4
          exact ⟨h1, c, h2, by cases c <;> exact h3⟩
        | some t => exact R4
      | _ => rw [hp] at R4; exact R4
    simp only [step] at h
    split at h
    · rename_i due again hp
      have htw := begin_tw R (by rw [hp]; simp)
      cases h
      simp only [Follows, next]
      obtain ⟨p', -, -, -, R4⟩ := hit.ex
      rw [hp] at R4
      cases again with
      | some t => exact hit.goto htw (fun _ => R4) (by simp)
      | none =>
        obtain ⟨-, c, hc, he⟩ := R4
        exact done_follows hit htw hc (Or.inr ⟨by cases c <;> simp_all [Enough, Call.cut], rfl⟩)
    · cases h
      simpa only [Follows, next] using hit

/-- **C54.** Every history of sleeps follows the contract, with two exceptions: calls with extreme times, and sleeps made of one `nanosleep` when a signal
handler runs during them. Missing: these two, which are false of the code (`signal_cuts_sleep`, `sleep_for_max_overflows`). -/
theorem sleeps_conform_partial {now user : Int} {ls : List Label} {s : State} {es : List Event} (h0 : 0 ≤ now) (h : run step (init now user) ls = some (s, es)) :
    Accepts (next false) (specInit now user) es :=
  simulation (s := init now user) Rel (fun _ _ _ _ _ hR hs => step_follows hR hs)
    ⟨⟨TimedWait.specInit now user false, { now := rfl, user := rfl, pred := rfl, held := rfl, pos := h0, beg := Int.le_refl _, hi := Int.le_refl _, lo := Int.le_refl _, ok := ⟨rfl, rfl⟩ },
      rfl, by simp [init], ⟨rfl, rfl⟩⟩, rfl, rfl, Int.le_refl _, Int.le_refl _, Int.le_refl _⟩ h

theorem accepts_strict {q : SState} {es : List Event} (hf : ∀ f, Event.failed f ∉ es) (hsig : Event.signal ∉ es) (hq : q.hit = false)
    (h : Accepts (next false) q es) : Accepts (next true) q es := by
  induction es generalizing q with
  | nil => trivial
  | cons e es ih =>
    have hf' : ∀ f, Event.failed f ∉ es := fun f h => hf f (by simp [h])
    have hs' : Event.signal ∉ es := fun h => hsig (by simp [h])
    have he : next true q e = next false q e := by
      cases e with
      | returned => simp [next, hq]
      | failed f => exact absurd (by simp) (hf f)
      | _ => rfl
    simp only [Accepts, he] at h ⊢
    cases hn : next false q e with
    | ok q' =>
      rw [hn] at h
      refine ih hf' hs' ?_ h
      cases e with
      | called c => simp only [next] at hn; split at hn <;> cases hn; rfl
      | returned => simp only [next] at hn; split at hn; cases hn; split at hn <;> cases hn; exact hq
      | failed f => exact absurd (by simp) (hf f)
      | clock n u => simp only [next] at hn; cases hn; exact hq
      | signal => exact absurd (by simp) hsig
    | undefined => trivial
    | illegal => rw [hn] at h; exact h

/-- Without signals, and as long as no call fails, the contract itself is kept: no sleep ends before its time. -/
theorem sleeps_conform_without_signals {now user : Int} {ls : List Label} {s : State} {es : List Event} (h0 : 0 ≤ now) (h : run step (init now user) ls = some (s, es))
    (hf : ∀ f, Event.failed f ∉ es) (hsig : Event.signal ∉ es) : Accepts (next true) (specInit now user) es :=
  accepts_strict hf hsig rfl (sleeps_conform_partial h0 h)

/-- A sleep until 150 ms of a clock that is set back while the thread sleeps; then an interruptible sleep with a spurious wake-up. -/
def demo : List Label :=
  [.call (.quietUntil 150000000), .go, .go, .tick 100000000 20000000, .go, .go, .tick 100000000 200000000, .go, .go,
   .call (.sleepFor 50), .go, .go, .go, .wake, .go, .go, .go, .go, .tick 50 200000000, .expire, .go, .go, .go]

example : ∃ s, run step (init 0 0) demo = some (s, [.called (.quietUntil 150000000), .clock 100000000 20000000, .clock 200000000 200000000, .returned,
    .called (.sleepFor 50), .clock 200000050 200000000, .returned]) := ⟨_, rfl⟩
/-- The contract does not allow an early return. -/
example : ¬ Accepts (next true) (specInit 0 0) [.called (.quietFor 50), .clock 49 49, .returned] := by decide

/-- A sleep that has begun ends: once the time has passed, a few steps of the thread itself are enough. -/
theorem quiet_sleep_ends {s : State} {due : Int} {again : Option Int} (h : s.pc = .nap due again) (hd : due ≤ s.tw.now)
    (hu : ∀ t, again = some t → t ≤ s.tw.user ∧ inRange (t - s.tw.user) = true) :
    ∃ ls s' es, (∀ l ∈ ls, l = .go) ∧ ls.length ≤ 2 ∧ run step s ls = some (s', es) ∧ Event.returned ∈ es := by
  cases again with
  | none => exact ⟨[.go], _, _, by simp, by simp, run_step (ls := []) (by simp only [step, h, hd, if_true]; rfl) rfl, by simp⟩
  | some t =>
    obtain ⟨h1, h2⟩ := hu t rfl
    have : ¬ (t - s.tw.user > 0) := by omega
    exact ⟨[.go, .go], _, _, by simp, by simp, run_step (m := { s with pc := .look t }) (by simp only [step, h, hd, if_true]; rfl)
      (run_step (ls := []) (by simp only [step, h2, this, if_true, if_false]; rfl) rfl), by simp⟩

/-- The hypotheses are met. -/
example : ∃ s es, run step (init 0 0) [.call (.quietUntil 50), .go, .go, .tick 50 50] = some (s, es) ∧ s.pc = .nap 50 (some 50) ∧ 50 ≤ s.tw.now ∧ 50 ≤ s.tw.user :=
  ⟨_, _, rfl, by decide, by decide, by decide⟩

/-- **C54, disagreement.** A signal handler that runs in the thread ends `no_interruption_point::sleep_for` at once, whatever the duration: the result of `nanosleep` is ignored. -/
theorem signal_cuts_sleep (d : Int) (hd : 0 < d) : ∃ s, run step (init 0 0) [.call (.quietFor d), .go, .signal] = some (s, [.called (.quietFor d), .signal, .returned]) ∧
    ¬ Accepts (next true) (specInit 0 0) [.called (.quietFor d), .signal, .returned] := by
  refine ⟨{ init 0 0 with pc := .idle }, ?_, ?_⟩
  · simp [run, step, init, Call.wait?, sleepForInternal, hd, goto, wakeUp, TimedWait.init]
  · have : ¬ (d ≤ 0) := by omega
    simp [Accepts, next, specInit, SState.over, this]

/-- **C54, disagreement.** The same for `no_interruption_point::sleep_until` with the steady clock. -/
theorem signal_cuts_sleep_until (t : Int) (hd : 0 < t) (hr : inRange t = true) : ∃ s, run step (init 0 0) [.call (.quietUntilSteady t), .go, .signal] =
    some (s, [.called (.quietUntilSteady t), .signal, .returned]) ∧ ¬ Accepts (next true) (specInit 0 0) [.called (.quietUntilSteady t), .signal, .returned] := by
  refine ⟨{ init 0 0 with pc := .idle }, ?_, ?_⟩
  · simp [run, step, init, Call.wait?, sleepForInternal, hd, goto, wakeUp, TimedWait.init, hr]
  · have : ¬ (t ≤ 0) := by omega
    simp [Accepts, next, specInit, SState.over, this]

/-- **C54, disagreement.** `sleep_for` with the largest duration overflows. -/
theorem sleep_for_max_overflows : ∃ s, run step (init 1 1) [.call (.sleepFor 9223372036854775807), .go] =
    some (s, [.called (.sleepFor 9223372036854775807), .failed .overflow]) ∧
    ¬ Accepts (next true) (specInit 1 1) [.called (.sleepFor 9223372036854775807), .failed .overflow] := ⟨_, rfl, by decide⟩

end Verif.Sleep
