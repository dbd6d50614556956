import Verif.WinOnce.Sim
import Verif.Once.SpecLemmas
/-! # C52: `call_once` on Windows -/

set_option linter.unusedSimpArgs false

namespace Verif.WinOnce

open Once

/-- **C52.** For every number of threads, every schedule and every pattern of throwing functions: calls of the function do not overlap, none starts after one
completed, `call_once` returns normally only after a completion, and an exception leaves the `call_once` whose own call of the function threw. -/
theorem history_conforms (n : Nat) {ls : List Label} {s : State} {es : List Event}
    (h : run step (init n) ls = some (s, es)) : Accepts (specNext 0) Flag.fresh es :=
  simulation Rel (fun _ _ _ _ _ hR hs => step_follows hR hs) (Rel.init n) h

/-- **C52**, in words: at most one call completes, and nobody returns normally before it. -/
theorem completes_at_most_once (n : Nat) {ls : List Label} {s : State} {es : List Event}
    (h : run step (init n) ls = some (s, es)) :
    completionsOf 0 es ≤ 1 ∧ ∀ t pre post, es = pre ++ .returned t 0 :: post → completionsOf 0 pre = 1 := by
  have ha := history_conforms n h
  have h1 := completionsOf_le_one (q := Flag.fresh) (by simp [Flag.fresh]) ha
  refine ⟨by simpa [Flag.fresh] using h1, ?_⟩
  rintro t pre post rfl
  have h2 := returned_after (q := Flag.fresh) (by simp [Flag.fresh]) ha rfl
  simp only [completionsOf, List.countP_append] at *
  simp [Flag.fresh] at h1
  omega

/-- Steps inside the library: no new calls, no function ends. -/
def Label.isInternal : Label → Bool
  | .go _ => true
  | _ => false

/-- Thread `t` is inside `call_once`, neither executing the function nor on the way out. -/
def Waiting (s : State) (t : Nat) : Prop :=
  ∃ x, s.ts[t]? = some x ∧ (x.pc = .top ∨ x.pc = .try_ ∨ x.pc = .count ∨ x.pc = .check ∨ x.pc = .create ∨ x.pc = .wait)

theorem one {s s' : State} {l : Label} {es : List Event} (h : step s l = some (s', es)) : run step s [l] = some (s', es) := by
  simp [run, h]

/-- Some thread is executing the function. -/
def Executing (s : State) : Prop := ∃ (u : Nat) (x : Thread), s.ts[u]? = some x ∧ x.pc = .inside

/-- How far a thread is from starting the function or from leaving after it. -/
def PC.rank : PC → Nat
  | .enterReset | .commitSet | .rollSet => 1
  | .enterOpen | .commitCreate | .rollOpen => 2
  | .commitLook | .rollStatus => 3
  | .commitStatus => 4
  | .commitCount => 5
  | _ => 0

/-- A thread that has claimed the flag, and is not executing the function, moves on. -/
theorem active_step {s : State} {u : Nat} {x : Thread} (hx : s.ts[u]? = some x) (ha : x.sets = true) (hi : x.pc ≠ .inside) :
    ∃ s' es, step s (.go u) = some (s', es) ∧ (Event.started u 0 ∈ es ∨
      ∃ x', s'.ts = s.ts.set u x' ∧ x'.pc ≠ .inside ∧ ((x'.sets = true ∧ x'.pc.rank < x.pc.rank) ∨ x'.sets = false)) := by
  obtain ⟨pc, hnd, counted⟩ := x
  cases pc <;> simp [Thread.sets, PC.claimed, PC.tail] at ha hi <;> simp only [step, hx, go]
  all_goals (repeat' split)
  all_goals refine ⟨_, _, rfl, ?_⟩
  all_goals first
    | (left; simp; done)
    | (right
       simp only [State.openEvent, State.createEvent, State.leave, State.at]
       try rw [if_neg (by assumption)]
       exact ⟨_, rfl, by simp, by simp [Thread.sets, PC.claimed, PC.tail, PC.rank]⟩)

theorem active_leaves {u : Nat} (k : Nat) : ∀ {s : State} {x : Thread}, s.ts[u]? = some x → x.sets = true → x.pc ≠ .inside → x.pc.rank ≤ k →
    ∃ ls s' es, (∀ l ∈ ls, l.isInternal = true) ∧ run step s ls = some (s', es) ∧ ((∃ v, Event.started v 0 ∈ es) ∨
      ∃ x', s'.ts = s.ts.set u x' ∧ x'.pc ≠ .inside ∧ x'.sets = false) := by
  induction k with
  | zero =>
    intro s x hx ha hi hk
    obtain ⟨pc, hnd, counted⟩ := x
    cases pc <;> simp [Thread.sets, PC.claimed, PC.tail, PC.rank] at ha hi hk
  | succ k ih =>
    intro s x hx ha hi hk
    obtain ⟨s1, es1, h1, h2⟩ := active_step hx ha hi
    rcases h2 with h2 | ⟨x', h2, h3, ⟨h4, h5⟩ | h4⟩
    · exact ⟨[.go u], s1, es1, by simp [Label.isInternal], one h1, Or.inl ⟨u, h2⟩⟩
    · have hx' : s1.ts[u]? = some x' := by rw [h2]; simp [getElem?_set_eq hx]
      obtain ⟨ls, s2, es2, h6, h7, h8⟩ := ih hx' h4 h3 (by omega)
      refine ⟨.go u :: ls, s2, es1 ++ es2, ?_, run_append (ls := [.go u]) (one h1) h7, ?_⟩
      · intro l hl; rcases List.mem_cons.mp hl with rfl | hl
        · rfl
        · exact h6 l hl
      · rcases h8 with ⟨v, h8⟩ | ⟨x'', h8, h9⟩
        · exact Or.inl ⟨v, by simp [h8]⟩
        · exact Or.inr ⟨x'', by rw [h8, h2, List.set_set], h9⟩
    · exact ⟨[.go u], s1, es1, by simp [Label.isInternal], one h1, Or.inr ⟨x', h2, h3, h4⟩⟩

/-- Everybody who claimed the flag leaves, unless the function is started. -/
theorem all_leave {t : Nat} {x : Thread} (hw : x.sets = false) (k : Nat) : ∀ {s : State}, s.ts[t]? = some x → ¬ Executing s → cnt Thread.sets s.ts = k →
    ∃ ls s' es, (∀ l ∈ ls, l.isInternal = true) ∧ run step s ls = some (s', es) ∧ ((∃ v, Event.started v 0 ∈ es) ∨
      (s'.ts[t]? = some x ∧ cnt Thread.sets s'.ts = 0 ∧ ¬ Executing s')) := by
  induction k with
  | zero => intro s hx he hc; exact ⟨[], s, [], by simp, rfl, Or.inr ⟨hx, hc, he⟩⟩
  | succ k ih =>
    intro s hx he hc
    obtain ⟨u, y, hy, hs⟩ := exists_of_cnt_pos (f := Thread.sets) (ts := s.ts) (by omega)
    have hut : t ≠ u := by rintro rfl; rw [hx] at hy; cases hy; rw [hw] at hs; cases hs
    obtain ⟨ls, s1, es1, h1, h2, h3⟩ := active_leaves _ hy hs (fun hc => he ⟨u, y, hy, hc⟩) (Nat.le_refl _)
    rcases h3 with h3 | ⟨y', h3, h4, h5⟩
    · exact ⟨ls, s1, es1, h1, h2, Or.inl h3⟩
    · have hx1 : s1.ts[t]? = some x := by rw [h3, List.getElem?_set_ne (Ne.symm hut)]; exact hx
      have hc1 := cnt_set Thread.sets y' hy
      rw [← h3, hs, h5] at hc1
      obtain ⟨ls2, s2, es2, h6, h7, h8⟩ := ih hx1 (by
        rintro ⟨v, z, hz, hp⟩
        rw [h3] at hz
        by_cases hvu : v = u
        · subst hvu; simp [getElem?_set_eq hy] at hz; subst hz; exact h4 hp
        · rw [List.getElem?_set_ne (Ne.symm hvu)] at hz; exact he ⟨v, z, hz, hp⟩) (by simp at hc1; omega)
      refine ⟨ls ++ ls2, s2, es1 ++ es2, ?_, run_append h2 h7, ?_⟩
      · intro l hl; rcases List.mem_append.mp hl with hl | hl
        · exact h1 l hl
        · exact h6 l hl
      · rcases h8 with ⟨v, h8⟩ | h8
        · exact Or.inl ⟨v, by simp [h8]⟩
        · exact Or.inr h8

/-- Thread `t` gets to execute the function or to return, by steps of its own inside the library. -/
def GetsIn (s : State) (t : Nat) : Prop :=
  ∃ ls s' es, (∀ l ∈ ls, l.isInternal = true) ∧ run step s ls = some (s', es) ∧ (Event.started t 0 ∈ es ∨ Event.returned t 0 ∈ es)

theorem GetsIn.step {s s1 : State} {t : Nat} {es1 : List Event} (h : step s (.go t) = some (s1, es1)) (hg : GetsIn s1 t) : GetsIn s t := by
  obtain ⟨ls, s2, es2, h1, h2, h3⟩ := hg
  refine ⟨.go t :: ls, s2, es1 ++ es2, ?_, run_append (ls := [.go t]) (one h) h2, ?_⟩
  · intro l hl; rcases List.mem_cons.mp hl with rfl | hl
    · rfl
    · exact h1 l hl
  · rcases h3 with h3 | h3 <;> simp [h3]

theorem GetsIn.last {s s1 : State} {t : Nat} {es1 : List Event} (h : WinOnce.step s (.go t) = some (s1, es1))
    (hg : Event.started t 0 ∈ es1 ∨ Event.returned t 0 ∈ es1) : GetsIn s t :=
  ⟨[.go t], s1, es1, by simp [Label.isInternal], one h, hg⟩

theorem enterReset_getsIn {s : State} {t : Nat} {x : Thread} (hx : s.ts[t]? = some x) (hp : x.pc = .enterReset) : GetsIn s t :=
  GetsIn.last (by simp only [WinOnce.step, hx, go, hp]; rfl) (by simp)

theorem enterOpen_getsIn {s : State} {t : Nat} {x : Thread} (hx : s.ts[t]? = some x) (hp : x.pc = .enterOpen) : GetsIn s t := by
  by_cases h1 : x.hnd = true
  · refine GetsIn.step (s1 := s.at t x .enterReset) (es1 := []) (by simp [WinOnce.step, hx, go, hp, h1])
      (enterReset_getsIn (x := { x with pc := .enterReset }) ?_ rfl)
    simp [State.at, getElem?_set_eq hx]
  · by_cases h2 : s.refs = 0
    · exact GetsIn.last (s1 := s.at t x .inside) (es1 := [.started t 0]) (by simp [WinOnce.step, hx, go, hp, h1, h2]) (by simp)
    · refine GetsIn.step (s1 := s.openEvent t x .enterReset .inside) (es1 := []) (by simp [WinOnce.step, hx, go, hp, h1, h2])
        (enterReset_getsIn (x := { x with pc := .enterReset, hnd := true }) ?_ rfl)
      simp [State.openEvent, h2, getElem?_set_eq hx]

theorem try_getsIn {s : State} {t : Nat} {x : Thread} (hx : s.ts[t]? = some x) (hp : x.pc = .try_) (hst : s.status = .fresh) : GetsIn s t := by
  refine GetsIn.step (s1 := { s.at t x .enterOpen with status := .running }) (es1 := []) (by simp [WinOnce.step, hx, go, hp, hst])
    (enterOpen_getsIn (x := { x with pc := .enterOpen }) ?_ rfl)
  simp [State.at, getElem?_set_eq hx]

theorem top_getsIn {s : State} {t : Nat} {x : Thread} (hx : s.ts[t]? = some x) (hp : x.pc = .top) (hst : s.status ≠ .running) : GetsIn s t := by
  by_cases h1 : s.status = .complete
  · exact GetsIn.last (s1 := s.leave t x) (es1 := [.returned t 0]) (by simp [WinOnce.step, hx, go, hp, h1]) (by simp)
  · refine GetsIn.step (s1 := s.at t x .try_) (es1 := []) (by simp [WinOnce.step, hx, go, hp, h1])
      (try_getsIn (x := { x with pc := .try_ }) ?_ rfl ?_)
    · simp [State.at, getElem?_set_eq hx]
    · simp only [State.at]; cases h : s.status <;> simp_all

theorem create_getsIn {s : State} {t : Nat} {x : Thread} (hx : s.ts[t]? = some x) (hp : x.pc = .create) (hst : s.status ≠ .running) : GetsIn s t := by
  refine GetsIn.step (s1 := s.createEvent t x .top) (es1 := []) (by simp [WinOnce.step, hx, go, hp])
      (top_getsIn (x := { x with pc := .top, hnd := true }) ?_ rfl hst)
  simp [State.createEvent, getElem?_set_eq hx]

theorem check_getsIn {s : State} {t : Nat} {x : Thread} (hx : s.ts[t]? = some x) (hp : x.pc = .check) (hst : s.status ≠ .running) : GetsIn s t := by
  by_cases h1 : s.status = .complete
  · exact GetsIn.last (s1 := s.leave t x) (es1 := [.returned t 0]) (by simp [WinOnce.step, hx, go, hp, h1]) (by simp)
  · refine GetsIn.step (s1 := s.at t x .create) (es1 := []) (by simp [WinOnce.step, hx, go, hp, h1])
      (create_getsIn (x := { x with pc := .create }) ?_ rfl hst)
    simp [State.at, getElem?_set_eq hx]

theorem count_getsIn {s : State} {t : Nat} {x : Thread} (hx : s.ts[t]? = some x) (hp : x.pc = .count) (hst : s.status ≠ .running) : GetsIn s t := by
  refine GetsIn.step (s1 := { s.at t { x with counted := true } .check with count := s.count + 1 }) (es1 := []) (by simp [WinOnce.step, hx, go, hp])
      (check_getsIn (x := { x with pc := .check, counted := true }) ?_ rfl hst)
  simp [State.at, getElem?_set_eq hx]

theorem wait_getsIn {s : State} {t : Nat} {x : Thread} (hx : s.ts[t]? = some x) (hp : x.pc = .wait) (hst : s.status ≠ .running) (he : s.ev = true) :
    GetsIn s t := by
  refine GetsIn.step (s1 := s.at t x .top) (es1 := []) (by simp [WinOnce.step, hx, go, hp, he])
      (top_getsIn (x := { x with pc := .top }) ?_ rfl hst)
  simp [State.at, getElem?_set_eq hx]

/-- When nobody has claimed the flag, a caller gets in. -/
theorem free_getsIn {s : State} {q : Flag} (R : Rel s q) {t : Nat} (hw : Waiting s t) (hc : cnt Thread.sets s.ts = 0) : GetsIn s t := by
  have hst : s.status ≠ .running := by
    intro h
    have h1 := R.claims
    have h2 : cnt Thread.claims s.ts ≤ cnt Thread.sets s.ts := cnt_le _ (by
      rintro ⟨pc, h, c⟩; cases pc <;> simp [Thread.sets, Thread.claims, PC.claimed])
    simp [h] at h1; omega
  obtain ⟨x, hx, hp⟩ := hw
  have hwait := R.wait t x hx
  rcases hp with hp | hp | hp | hp | hp | hp
  · exact top_getsIn hx hp hst
  · by_cases h1 : s.status = .fresh
    · exact try_getsIn hx hp h1
    · have h2 : s.status = .complete := by cases h : s.status <;> simp_all
      by_cases h3 : x.counted = true
      · have h4 := hwait (by simp [Thread.lurks, hp, h3]) (Or.inr h2)
        have h5 : s.ev = true := by rcases h4 with h4 | h4; exact h4; omega
        refine GetsIn.step (s1 := s.at t x .wait) (es1 := []) (by simp [WinOnce.step, hx, go, hp, h1, h3])
          (wait_getsIn (x := { x with pc := .wait }) ?_ rfl hst h5)
        simp [State.at, getElem?_set_eq hx]
      · refine GetsIn.step (s1 := s.at t x .count) (es1 := []) (by simp [WinOnce.step, hx, go, hp, h1, h3])
          (count_getsIn (x := { x with pc := .count }) ?_ rfl hst)
        simp [State.at, getElem?_set_eq hx]
  · exact count_getsIn hx hp hst
  · exact check_getsIn hx hp hst
  · exact create_getsIn hx hp hst
  · have h4 := hwait (by simp [Thread.lurks, hp]) (Or.inl hp)
    exact wait_getsIn hx hp hst (by rcases h4 with h4 | h4; exact h4; omega)

theorem reach_rel (n : Nat) {ls : List Label} {s : State} {es : List Event} (h : run step (init n) ls = some (s, es)) :
    ∃ q, specState (specNext 0) Flag.fresh es = some q ∧ Rel s q := by
  obtain ⟨q, hq⟩ : ∃ q, specState (specNext 0) Flag.fresh es = some q := (history_conforms n h).specState_isSome (clientOk 0 _ _)
  exact ⟨q, hq, simulation_state Rel (fun _ _ _ _ _ hR hs => step_follows hR hs) (Rel.init n) h hq⟩

/-- **C52.** No caller is left behind: as soon as no thread is executing the function, steps of the library alone bring every thread inside `call_once`
to run the function or to return, unless they first bring another caller to run it. -/
theorem caller_gets_in (n : Nat) {ls : List Label} {s : State} {es : List Event} (t : Nat)
    (h : run step (init n) ls = some (s, es)) (hw : Waiting s t) (hx : ¬ Executing s) :
    ∃ ls' s' es', (∀ l ∈ ls', l.isInternal = true) ∧ run step s ls' = some (s', es') ∧
      ((∃ u, Event.started u 0 ∈ es') ∨ Event.returned t 0 ∈ es') := by
  obtain ⟨x, hx1, hp⟩ := hw
  have hs : x.sets = false := by
    obtain ⟨pc, hnd, counted⟩ := x
    rcases hp with hp | hp | hp | hp | hp | hp <;> simp only at hp <;> subst hp <;> rfl
  obtain ⟨ls1, s1, es1, h1, h2, h3⟩ := all_leave hs _ hx1 hx rfl
  rcases h3 with h3 | ⟨h3, h4, -⟩
  · exact ⟨ls1, s1, es1, h1, h2, Or.inl h3⟩
  · obtain ⟨q, -, R⟩ := reach_rel n (run_append h h2)
    obtain ⟨ls2, s2, es2, h5, h6, h7⟩ := free_getsIn R ⟨x, h3, hp⟩ h4
    refine ⟨ls1 ++ ls2, s2, es1 ++ es2, ?_, run_append h2 h6, ?_⟩
    · intro l hl; rcases List.mem_append.mp hl with hl | hl
      · exact h1 l hl
      · exact h5 l hl
    · rcases h7 with h7 | h7
      · exact Or.inl ⟨t, by simp [h7]⟩
      · exact Or.inr (by simp [h7])

theorem spec_done {q q' : Flag} {es : List Event} (hq : q.running ≠ none → q.done = false) (h : specState (specNext 0) q es = some q') :
    (q'.running ≠ none → q'.done = false) ∧ b2n q'.done = b2n q.done + completionsOf 0 es := by
  induction es generalizing q with
  | nil => simp only [specState, Option.some.injEq] at h; subst h; exact ⟨hq, by simp [completionsOf]⟩
  | cons e es ih =>
    rw [completionsOf_cons]
    simp only [specState] at h
    cases hn : specNext 0 q e with
    | undefined => simp [hn] at h
    | illegal => simp [hn] at h
    | ok q1 =>
      simp only [hn] at h
      obtain ⟨h1, h2⟩ := spec_step hq hn
      obtain ⟨h3, h4⟩ := ih h1 h
      exact ⟨h3, by omega⟩

theorem spec_no_start {q : Flag} {es : List Event} (hq : q.done = true) (hr : q.running = none) (h : Accepts (specNext 0) q es) (u : Nat) :
    Event.started u 0 ∉ es := by
  induction es generalizing q with
  | nil => simp
  | cons e es ih =>
    simp only [Accepts] at h
    cases e with
    | started t j =>
      by_cases hj : j = 0
      · subst hj; simp [specNext, hq] at h
      · simp [specNext, hj] at h
        have := ih hq hr h
        simp [this, Ne.symm hj]
    | finished t j ok =>
      by_cases hj : j = 0
      · subst hj; simp [specNext, hr] at h
      · simp [specNext, hj] at h
        have := ih hq hr h
        simp [this]
    | returned t j =>
      by_cases hj : j = 0
      · subst hj
        by_cases ht : t ∈ q.throwing
        · simp [specNext, hq, ht] at h
        · simp [specNext, hq, ht] at h
          have := ih hq hr h
          simp [this]
      · simp [specNext, hj] at h
        have := ih hq hr h
        simp [this]
    | raised t j =>
      simp only [specNext] at h
      by_cases hj : j = 0
      · subst hj
        by_cases ht : t ∈ q.throwing
        · simp [ht] at h
          have := ih (q := { q with throwing := q.throwing.erase t }) hq hr h
          simp [this]
        · simp [ht] at h
      · simp [hj] at h
        have := ih hq hr h
        simp [this]

/-- **C52.** Once a call of the function has completed, steps of the library alone bring every thread inside `call_once` to return. -/
theorem caller_returns (n : Nat) {ls : List Label} {s : State} {es : List Event} (t : Nat)
    (h : run step (init n) ls = some (s, es)) (hw : Waiting s t) (hd : completionsOf 0 es = 1) :
    ∃ ls' s' es', (∀ l ∈ ls', l.isInternal = true) ∧ run step s ls' = some (s', es') ∧ Event.returned t 0 ∈ es' := by
  obtain ⟨q, hq, R⟩ := reach_rel n h
  obtain ⟨hd1, hd2⟩ := spec_done (by simp [Flag.fresh]) hq
  have hdone : q.done = true := by
    cases hc : q.done with
    | true => rfl
    | false => simp [hc, hd, Flag.fresh] at hd2
  have hrun : q.running = none := by
    cases hc : q.running with
    | none => rfl
    | some u => rw [hd1 (by simp [hc])] at hdone; cases hdone
  have hex : ¬ Executing s := by
    rintro ⟨u, x, hx, hp⟩
    rw [R.inside u x hx hp] at hrun; cases hrun
  obtain ⟨ls', s', es', h1, h2, h3⟩ := caller_gets_in n t h hw hex
  rcases h3 with ⟨u, h3⟩ | h3
  · exact absurd h3 (spec_no_start hdone hrun (simulation Rel (fun _ _ _ _ _ hR hs => step_follows hR hs) R h2) u)
  · exact ⟨ls', s', es', h1, h2, h3⟩

/-- Thread 1 waits for the event while thread 0 executes the function, which throws; thread 1 takes over and thread 2 returns later. -/
def takeover : List Label :=
  [.call 0, .go 0, .go 0, .go 0, .call 1, .go 1, .go 1, .go 1, .go 1, .go 1, .go 1, .go 1, .finish 0 false, .go 0, .go 0, .go 0, .go 1, .go 1, .go 1, .go 1, .go 1]

example : (run step (init 2) (takeover ++ [.finish 1 true, .go 1, .go 1, .go 1, .go 1, .call 0, .go 0])).map (·.2) =
    some [.started 0 0, .finished 0 0 false, .raised 0 0, .started 1 0, .finished 1 0 true, .returned 1 0, .returned 0 0] := by decide

/-- The hypotheses of `caller_gets_in` are met: thread 1 sleeps, and the function of thread 0 has just thrown. -/
example : ∃ s es, run step (init 2) (takeover.take 13) = some (s, es) ∧ Waiting s 1 ∧ ¬ Executing s ∧ step s (.go 1) = none := by
  refine ⟨_, _, rfl, ⟨_, rfl, by simp⟩, ?_, by decide⟩
  rintro ⟨t, x, hx, hp⟩
  match t with
  | 0 => cases hx; cases hp
  | 1 => cases hx; cases hp
  | t + 2 => cases hx

/-- The hypotheses of `caller_returns` are met: thread 1 sleeps, and the function of thread 0 has just completed. -/
example : ∃ s es, run step (init 2) (takeover.take 12 ++ [.finish 0 true]) = some (s, es) ∧ Waiting s 1 ∧ completionsOf 0 es = 1 ∧
    step s (.go 1) = none :=
  ⟨_, _, rfl, ⟨_, rfl, by simp⟩, by decide, by decide⟩

end Verif.WinOnce
