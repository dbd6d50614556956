import Verif.SerialCont.Sim
/-!
# Every closure that is accepted is carried out
-/

set_option linter.unusedSimpArgs false
set_option linter.unusedVariables false

namespace Verif.SerialCont

/-- The underlying executor keeps what it is given; no closure throws; nobody destroys the executor. -/
def Label.fair : Label → Bool
  | .giveInline _ | .reject _ | .passReject _ | .throw _ | .destroy _ | .destroyEnd => false
  | _ => true

/-- A step of a call that has begun, or of the underlying executor. -/
def Label.work : Label → Bool
  | .go _ | .give _ | .begin _ | .finish _ | .mark _ | .pass _ => true
  | _ => false

theorem Label.fair_of_work {l : Label} (h : l.work = true) : l.fair = true := by cases l <;> simp [work] at h <;> rfl

structure Good (s : State) (f : Nat) (ph : Ph) : Prop where
  fi : FInv s f ph
  ns : ph ≠ .stuck
  dead : s.dead = false
  gone : s.gone = false
  noinl : ∀ k c, s.pc k ≠ .inline c
  fut : s.fut = none → ∃ k, s.pc k = .launch f

theorem Good.init : Good init 0 .idle := { fi := FInv.init, ns := by simp, dead := rfl, gone := rfl, noinl := by simp [SerialCont.init], fut := by simp [SerialCont.init] }

theorem not_dropped {f : Nat} {ph : Ph} (h : ph ≠ .stuck) (d : Nat) : stOf f ph d ≠ .dropped := by
  simp only [stOf]; split
  · simp
  · split
    · cases ph <;> simp at h ⊢
    · simp

theorem stuck_dropped (f : Nat) : stOf f .stuck f = .dropped := by simp [stOf]

def Event.drops : Event → Bool
  | .failed _ _ | .lost _ => true
  | _ => false

theorem foldl_not_dropped {es : List Event} (he : es.any Event.drops = false) {g : Nat → St} (hg : ∀ d, g d ≠ .dropped) (d : Nat) : es.foldl stEv g d ≠ .dropped := by
  induction es generalizing g with
  | nil => exact hg d
  | cons e es ih =>
    simp only [List.any_cons, Bool.or_eq_false_iff] at he
    refine ih he.2 ?_
    intro d'
    cases e <;> simp only [stEv, upd_apply] <;> first | exact hg d' | (exact absurd he.1 Bool.noConfusion; done) | (split <;> first | exact hg d' | simp)

/-- Steps without failures give no closure up. -/
theorem fair_events {s s' : State} {l : Label} {es : List Event} (hl : l.fair = true) (hs : step s l = some (s', es)) : es.any Event.drops = false := by
  simp only [step] at hs
  split at hs
  · cases hs
  cases l <;> simp only [Label.fair, Bool.false_eq_true] at hl <;> simp only [stepLive, stepGo, stepGive, stepMark, stepPass] at hs
  all_goals (repeat' split at hs) <;> cases hs <;> first | rfl | (simp only [accessEx]; split <;> rfl)

set_option maxHeartbeats 1000000 in
theorem step_good {s s' : State} {f : Nat} {ph : Ph} {l : Label} {es : List Event} (h : Good s f ph) (hl : l.fair = true) (hs : step s l = some (s', es)) : ∃ f' ph', Good s' f' ph' := by
  obtain ⟨f', ph', hf', -, hst⟩ := step_front h.fi hs
  have hev := fair_events hl hs
  have hns : ph' ≠ .stuck := by
    rintro rfl
    have := foldl_not_dropped hev (not_dropped (f := f) h.ns) f'
    rw [← hst] at this
    exact this (stuck_dropped f')
  have h1 := h.noinl; have h2 := h.fut; have hd := h.dead; have hg := h.gone
  have hm : ∀ k, mayCall s k = true → s.pc k = .idle := by intro k hm; cases k <;> simp only [mayCall, Bool.and_eq_true, beq_iff_eq] at hm <;> exact hm.1
  have hlaunch : (∃ k c, s'.pc k = .launch c) → ∃ k, s'.pc k = .launch f' := by rintro ⟨k, c, hk⟩; exact ⟨k, (hf'.launch k c hk).1 ▸ hk⟩
  refine ⟨f', ph', { fi := hf', ns := hns, dead := ?_, gone := ?_, noinl := ?_, fut := fun hx => hlaunch ?_ }⟩
  all_goals
    clear hst hev hlaunch
    simp only [step, hd, Bool.false_eq_true, if_false] at hs
    cases l <;> simp only [Label.fair, Bool.false_eq_true] at hl <;> simp only [stepLive, stepGo, stepGive, stepMark, stepPass] at hs
    all_goals (repeat' split at hs) <;> cases hs <;> (try simp only [finishSubmit, upd_apply]) <;> first | assumption | skip
  all_goals grind [finishSubmit]

/-- Some steps of calls that have begun and of the underlying executor. -/
def Work (s s' : State) : Prop := ∃ ls es, (∀ l ∈ ls, l.work = true) ∧ run step s ls = some (s', es)

theorem Work.refl (s : State) : Work s s := ⟨[], [], by simp, rfl⟩

theorem Work.trans {a b c : State} (h1 : Work a b) (h2 : Work b c) : Work a c := by
  obtain ⟨l1, e1, w1, r1⟩ := h1
  obtain ⟨l2, e2, w2, r2⟩ := h2
  refine ⟨l1 ++ l2, e1 ++ e2, fun l hl => ?_, run_append r1 r2⟩
  rcases List.mem_append.1 hl with h | h
  · exact w1 l h
  · exact w2 l h

theorem Work.one {s s' : State} {l : Label} {es : List Event} (hl : l.work = true) (hs : step s l = some (s', es)) : Work s s' :=
  ⟨[l], es ++ [], by simpa using hl, by simp only [run, hs]⟩

theorem step_mono {s s' : State} {l : Label} {es : List Event} (hs : step s l = some (s', es)) : s.n ≤ s'.n := by
  simp only [step] at hs
  split at hs
  · cases hs
  cases l <;> simp only [stepLive, stepGo, stepGive, stepGiveInline, stepReject, stepMark, stepPass, stepPassReject] at hs
  all_goals (repeat' split at hs) <;> cases hs <;> first | exact Nat.le_refl _ | exact Nat.le_succ _

theorem Good.front {s : State} {f f' : Nat} {ph' : Ph} (h : Good s f' ph') {ph : Ph} (hj : s.job f = ph.job) (hp : ph = .handed ∨ ph = .running ∨ ph = .marking) : Good s f ph := by
  have hne : ph.job ≠ .none ∧ ph.job ≠ .waiting ∧ ph.job ≠ .finished ∧ ∀ l, ph.job ≠ .launching l := by rcases hp with rfl | rfl | rfl <;> simp [Ph.job]
  obtain ⟨rfl, -, hx⟩ := job_front h.fi hj hne.1 hne.2.1 hne.2.2.1 hne.2.2.2
  have : ph' = ph := by rcases hp with rfl | rfl | rfl <;> cases ph' <;> simp [Ph.job] at hx <;> rfl
  exact this ▸ h

theorem Good.job {s : State} {f : Nat} {ph : Ph} (h : Good s f ph) (hf : f < s.n) : s.job f = ph.job := by rw [h.fi.job, jobOf, if_neg (by omega), if_pos hf, if_pos rfl]

/-- The front comes to the underlying executor. -/
theorem to_handed {s : State} {f : Nat} {ph : Ph} (h : Good s f ph) (hp : ph = .subm ∨ ph = .pass) : ∃ s', Work s s' ∧ Good s' f .handed ∧ s.n ≤ s'.n := by
  have hd := h.dead; have hg := h.gone
  rcases hp with rfl | rfl
  · obtain ⟨k, hk⟩ := h.fi.subm rfl
    have hs : step s (.give k) = some (finishSubmit { s with job := upd s.job f .handed } k f, [.submitted k f]) := by simp [step, hd, stepLive, stepGive, hk]
    obtain ⟨f', ph', h'⟩ := step_good h rfl hs
    exact ⟨_, Work.one rfl hs, h'.front (by simp [finishSubmit, upd_apply, Ph.job]) (.inl rfl), step_mono hs⟩
  · have h0 := h.fi.pass rfl
    have hj : s.job (f - 1) = .launching [f] := by rw [h.fi.job, jobOf, if_pos (by omega), if_pos ⟨rfl, by omega⟩]
    have hs : step s (.pass (f - 1)) = some ({ s with job := upd (upd s.job f .handed) (f - 1) .finished }, []) := by simp [step, hd, stepLive, stepPass, hj, accessEx, hg]
    obtain ⟨f', ph', h'⟩ := step_good h rfl hs
    refine ⟨_, Work.one rfl hs, h'.front ?_ (.inl rfl), step_mono hs⟩
    simp only [upd_apply, Ph.job]; rw [if_neg (by omega)]; simp

/-- The mutex becomes free while a closure runs. -/
theorem to_unlocked {s : State} {f : Nat} (h : Good s f .running) : ∃ s', Work s s' ∧ Good s' f .running ∧ s.n ≤ s'.n ∧ s'.mtx = none ∧ ((s'.pc (.closure f) = .idle) ∨ ∃ o, s'.pc (.closure f) = .lock o) := by
  have hd := h.dead; have hg := h.gone
  have hnh : ∀ s' : State, Good s' f .running → s'.mtx = none → (s'.pc (.closure f) = .idle) ∨ ∃ o, s'.pc (.closure f) = .lock o := by
    intro s' h' hm
    cases hq : s'.pc (.closure f) with
    | idle => exact .inl rfl
    | lock o => exact .inr ⟨o, rfl⟩
    | attach => have := h'.fi.holds (.closure f) (by rw [hq]; rfl); rw [hm] at this; cases this
    | launch c => have := h'.fi.holds (.closure f) (by rw [hq]; rfl); rw [hm] at this; cases this
    | inline c => exact absurd hq (h'.noinl _ _)
  cases hm : s.mtx with
  | none => exact ⟨s, Work.refl s, h, Nat.le_refl _, hm, hnh s h hm⟩
  | some k =>
    have hk := h.fi.held k hm
    have hfn : f < s.n := by
      have := h.fi.le
      rcases Nat.lt_or_ge f s.n with h' | h'
      · exact h'
      · have := h.fi.idle.2 (by omega); cases this
    have hat : s.pc k = .attach := by
      cases hq : s.pc k with
      | idle => rw [hq] at hk; cases hk
      | lock o => rw [hq] at hk; cases hk
      | attach => rfl
      | launch c => have := (h.fi.launch k c hq).2.2; cases this
      | inline c => exact absurd hq (h.noinl _ _)
    obtain ⟨p, hp⟩ : ∃ p, s.fut = some p := by
      cases hq : s.fut with
      | some p => exact ⟨p, rfl⟩
      | none => obtain ⟨j, hj⟩ := h.fut hq; have := (h.fi.launch j f hj).2.2; cases this
    obtain ⟨rfl, -⟩ := h.fi.fut p hp
    have hnd : (s.node s.n).done = false := by rw [h.fi.done]; simp; omega
    have hs : step s (.go k) = some (finishSubmit { s with n := s.n + 1, job := upd s.job s.n .waiting, node := upd s.node s.n { s.node s.n with conts := (s.node s.n).conts ++ [s.n] } } k s.n,
        [.queued k s.n, .submitted k s.n]) := by simp [step, hd, stepLive, stepGo, hat, hp, hnd]
    obtain ⟨f', ph', h'⟩ := step_good h rfl hs
    have h'' : Good _ f .running := h'.front (by have := h.job hfn; simp only [finishSubmit, upd_apply]; rw [if_neg (by omega)]; exact this) (.inr (.inl rfl))
    exact ⟨_, Work.one rfl hs, h'', step_mono hs, rfl, hnh _ h'' rfl⟩

/-- The closure that runs gets out of its call. -/
theorem to_quiet {s : State} {f : Nat} (h : Good s f .running) : ∃ s', Work s s' ∧ Good s' f .running ∧ s.n ≤ s'.n ∧ s'.pc (.closure f) = .idle := by
  obtain ⟨s1, w1, h1, m1, hm, hq | ⟨o, hq⟩⟩ := to_unlocked h
  · exact ⟨s1, w1, h1, m1, hq⟩
  · have hd := h1.dead; have hg := h1.gone
    have hfn : f < s1.n := by
      have := h1.fi.le
      rcases Nat.lt_or_ge f s1.n with h' | h'
      · exact h'
      · have := h1.fi.idle.2 (by omega); cases this
    have hj := h1.job hfn
    cases o with
    | close =>
      have hs : step s1 (.go (.closure f)) = some ({ s1 with closed := true, pc := upd s1.pc (.closure f) .idle }, [.closeReturned (.closure f)]) := by simp [step, hd, hg, stepLive, stepGo, hq, hm]
      obtain ⟨f', ph', h'⟩ := step_good h1 rfl hs
      exact ⟨_, w1.trans (.one rfl hs), h'.front hj (.inr (.inl rfl)), m1, by simp [upd_apply]⟩
    | closed =>
      have hs : step s1 (.go (.closure f)) = some ({ s1 with pc := upd s1.pc (.closure f) .idle }, [.closedIs (.closure f) s1.closed]) := by simp [step, hd, hg, stepLive, stepGo, hq, hm]
      obtain ⟨f', ph', h'⟩ := step_good h1 rfl hs
      exact ⟨_, w1.trans (.one rfl hs), h'.front hj (.inr (.inl rfl)), m1, by simp [upd_apply]⟩
    | submit =>
      cases hc : s1.closed with
      | true =>
        have hs : step s1 (.go (.closure f)) = some ({ s1 with pc := upd s1.pc (.closure f) .idle }, [.refused (.closure f)]) := by simp [step, hd, hg, stepLive, stepGo, hq, hm, hc]
        obtain ⟨f', ph', h'⟩ := step_good h1 rfl hs
        exact ⟨_, w1.trans (.one rfl hs), h'.front hj (.inr (.inl rfl)), m1, by simp [upd_apply]⟩
      | false =>
        have hs : step s1 (.go (.closure f)) = some ({ s1 with mtx := some (.closure f), pc := upd s1.pc (.closure f) .attach }, []) := by simp [step, hd, hg, stepLive, stepGo, hq, hm, hc]
        obtain ⟨f', ph', h'⟩ := step_good h1 rfl hs
        have h2 : Good _ f .running := h'.front hj (.inr (.inl rfl))
        have hp2 : upd s1.pc (.closure f) .attach (.closure f) = .attach := by simp [upd_apply]
        obtain ⟨p, hp⟩ : ∃ p, s1.fut = some p := by
          cases hq : s1.fut with
          | some p => exact ⟨p, rfl⟩
          | none => obtain ⟨j, hj⟩ := h1.fut hq; have := (h1.fi.launch j f hj).2.2; cases this
        obtain ⟨rfl, -⟩ := h1.fi.fut p hp
        have hnd : (s1.node s1.n).done = false := by rw [h1.fi.done]; simp; omega
        have hs2 : step { s1 with mtx := some (.closure f), pc := upd s1.pc (.closure f) .attach } (.go (.closure f)) =
            some (finishSubmit { s1 with mtx := some (.closure f), pc := upd s1.pc (.closure f) .attach, n := s1.n + 1, job := upd s1.job s1.n .waiting, node := upd s1.node s1.n { s1.node s1.n with conts := (s1.node s1.n).conts ++ [s1.n] } } (.closure f) s1.n, [.queued (.closure f) s1.n, .submitted (.closure f) s1.n]) := by
          simp [step, hd, stepLive, stepGo, hp2, hp, hnd]
        obtain ⟨f'', ph'', h3⟩ := step_good h2 rfl hs2
        have := step_mono hs2
        refine ⟨_, (w1.trans (.one rfl hs)).trans (.one rfl hs2), h3.front ?_ (.inr (.inl rfl)), Nat.le_trans m1 this, by simp [finishSubmit, upd_apply]⟩
        simp only [finishSubmit, upd_apply]; rw [if_neg (by omega)]; exact hj

/-- The front ends. -/
theorem front_ends {s : State} {f : Nat} {ph : Ph} (h : Good s f ph) (hf : f < s.n) : ∃ s' f' ph', Work s s' ∧ Good s' f' ph' ∧ s.n ≤ s'.n ∧ f < f' := by
  -- marking
  have hmark : ∀ s, Good s f .marking → f < s.n → ∃ s' f' ph', Work s s' ∧ Good s' f' ph' ∧ s.n ≤ s'.n ∧ f < f' := by
    intro s h hf
    have hd := h.dead
    obtain ⟨s', hs, hdn⟩ : ∃ s', step s (.mark f) = some (s', []) ∧ (s'.node (f + 1)).done = true := by
      have hj : s.job f = .marking := h.job hf
      exact ⟨{ s with node := upd s.node (f + 1) { done := true, conts := [] }, job := upd s.job f (if (s.node (f + 1)).conts = [] then .finished else .launching (s.node (f + 1)).conts) },
        by simp [step, hd, stepLive, stepMark, hj], by simp [upd_apply]⟩
    obtain ⟨f', ph', h'⟩ := step_good h rfl hs
    rw [h'.fi.done] at hdn
    exact ⟨s', f', ph', .one rfl hs, h', step_mono hs, Nat.lt_of_succ_le (by simpa using hdn)⟩
  have hrunning : ∀ s, Good s f .running → f < s.n → ∃ s' f' ph', Work s s' ∧ Good s' f' ph' ∧ s.n ≤ s'.n ∧ f < f' := by
    intro s h hf
    obtain ⟨s1, w1, h1, m1, hq⟩ := to_quiet h
    have hf1 : f < s1.n := by omega
    have hs : step s1 (.finish f) = some ({ s1 with job := upd s1.job f .marking }, [.ended f]) := by simp [step, h1.dead, stepLive, h1.job hf1, Ph.job, hq]
    obtain ⟨f', ph', h'⟩ := step_good h1 rfl hs
    have h2 : Good _ f .marking := h'.front (by simp [upd_apply, Ph.job]) (.inr (.inr rfl))
    obtain ⟨s3, f3, ph3, w3, h3, m3, hlt⟩ := hmark _ h2 hf1
    exact ⟨s3, f3, ph3, (w1.trans (.one rfl hs)).trans w3, h3, Nat.le_trans m1 m3, hlt⟩
  have hhanded : ∀ s, Good s f .handed → f < s.n → ∃ s' f' ph', Work s s' ∧ Good s' f' ph' ∧ s.n ≤ s'.n ∧ f < f' := by
    intro s h hf
    have hs : step s (.begin f) = some ({ s with job := upd s.job f .running }, [.started f]) := by simp [step, h.dead, stepLive, h.job hf, Ph.job]
    obtain ⟨f', ph', h'⟩ := step_good h rfl hs
    have h2 : Good _ f .running := h'.front (by simp [upd_apply, Ph.job]) (.inr (.inl rfl))
    obtain ⟨s3, f3, ph3, w3, h3, m3, hlt⟩ := hrunning _ h2 hf
    exact ⟨s3, f3, ph3, (Work.one rfl hs).trans w3, h3, m3, hlt⟩
  have hto : (ph = .subm ∨ ph = .pass) → ∃ s' f' ph', Work s s' ∧ Good s' f' ph' ∧ s.n ≤ s'.n ∧ f < f' := by
    intro hp
    obtain ⟨s1, w1, h1, m1⟩ := to_handed h hp
    obtain ⟨s3, f3, ph3, w3, h3, m3, hlt⟩ := hhanded _ h1 (by omega)
    exact ⟨s3, f3, ph3, w1.trans w3, h3, Nat.le_trans m1 m3, hlt⟩
  cases ph with
  | idle => have := h.fi.idle.1 rfl; omega
  | subm => exact hto (.inl rfl)
  | pass => exact hto (.inr rfl)
  | handed => exact hhanded s h hf
  | running => exact hrunning s h hf
  | marking => exact hmark s h hf
  | stuck => exact absurd rfl h.ns

/-- Everything up to `N` ends. -/
theorem all_end (m : Nat) : ∀ {s : State} {f : Nat} {ph : Ph}, Good s f ph → ∀ N, N ≤ s.n → N - f ≤ m → ∃ s' f' ph', Work s s' ∧ Good s' f' ph' ∧ N ≤ f' := by
  induction m with
  | zero => intro s f ph h N hN hm; exact ⟨s, f, ph, .refl s, h, by omega⟩
  | succ m ih =>
    intro s f ph h N hN hm
    rcases Nat.lt_or_ge f N with hx | hx
    · obtain ⟨s1, f1, ph1, w1, h1, m1, hlt⟩ := front_ends h (by omega)
      obtain ⟨s2, f2, ph2, w2, h2, hn⟩ := ih h1 N (by omega) (by omega)
      exact ⟨s2, f2, ph2, w1.trans w2, h2, hn⟩
    · exact ⟨s, f, ph, .refl s, h, hx⟩

/-! ## After a failure of the underlying executor -/

/-- Nobody will ever carry out the front. -/
def Broken (s : State) : Prop := ∃ f, FInv s f .stuck

theorem stOf_stuck {f f' : Nat} {ph : Ph} (h : stOf f ph f' = .dropped) : f = f' ∧ ph = .stuck := by
  simp only [stOf] at h
  split at h
  · cases h
  · split at h
    · rename_i hx; refine ⟨hx.symm, ?_⟩; cases ph <;> simp at h ⊢
    · cases h

theorem step_broken {s s' : State} {l : Label} {es : List Event} (h : Broken s) (hs : step s l = some (s', es)) : Broken s' ∧ ∀ c, .started c ∉ es := by
  obtain ⟨f, h⟩ := h
  obtain ⟨f', ph', hf', -, hst⟩ := step_front h hs
  have hjob : ∀ c j, s.job c = j → j ≠ .none → j ≠ .waiting → j ≠ .finished → (∀ l, j ≠ .launching l) → False := by
    intro c j hj h1 h2 h3 h4
    obtain ⟨-, -, hx⟩ := job_front h hj h1 h2 h3 h4
    exact h2 hx.symm
  have hpass : ∀ c l, s.job c ≠ .launching l := fun c l hj => by have := (job_pass h hj).2.1; cases this
  have hlaunch : ∀ k c, s.pc k ≠ .launch c := fun k c hk => by have := (h.launch k c hk).2.2; cases this
  have key : (∀ g, es.foldl stEv g = g) ∧ ∀ c, .started c ∉ es := by
    clear hst hf'
    simp only [step] at hs
    split at hs
    · cases hs
    cases l with
    | call k o => simp only [stepLive] at hs; split at hs <;> cases hs; exact ⟨fun _ => rfl, by simp⟩
    | go k =>
      simp only [stepLive, stepGo] at hs
      repeat' split at hs
      all_goals cases hs <;> exact ⟨fun _ => rfl, by simp⟩
    | give k => simp only [stepLive, stepGive] at hs; split at hs <;> cases hs; exact ⟨fun _ => rfl, by simp⟩
    | giveInline k => simp only [stepLive, stepGiveInline] at hs; split at hs <;> cases hs; rename_i hk; exact absurd hk (hlaunch _ _)
    | reject k => simp only [stepLive, stepReject] at hs; split at hs <;> cases hs; rename_i hk; exact absurd hk (hlaunch _ _)
    | begin c => simp only [stepLive] at hs; split at hs <;> cases hs; rename_i hj; exact (hjob c _ hj (by simp) (by simp) (by simp) (by simp)).elim
    | finish c => simp only [stepLive] at hs; split at hs <;> cases hs; rename_i hj; exact (hjob c _ hj.1 (by simp) (by simp) (by simp) (by simp)).elim
    | throw c => simp only [stepLive] at hs; split at hs <;> cases hs; rename_i hj; exact (hjob c _ hj.1 (by simp) (by simp) (by simp) (by simp)).elim
    | mark c => simp only [stepLive, stepMark] at hs; split at hs <;> cases hs; exact ⟨fun _ => rfl, by simp⟩
    | pass c => simp only [stepLive, stepPass] at hs; split at hs <;> cases hs; rename_i hj; exact absurd hj (hpass _ _)
    | passReject c => simp only [stepLive, stepPassReject] at hs; split at hs <;> cases hs; rename_i hj; exact absurd hj (hpass _ _)
    | destroy t => simp only [stepLive] at hs; split at hs <;> cases hs; exact ⟨fun _ => rfl, by simp⟩
    | destroyEnd =>
      simp only [stepLive] at hs
      split at hs
      · cases hs
      · split at hs <;> cases hs; exact ⟨fun _ => rfl, by simp⟩
  refine ⟨?_, key.2⟩
  have : stOf f' ph' f = .dropped := by rw [hst, key.1]; exact stuck_dropped f
  obtain ⟨rfl, rfl⟩ := stOf_stuck this
  exact ⟨f', hf'⟩

/-- A failure breaks the chain. -/
theorem step_breaks {s s' : State} {f : Nat} {ph : Ph} {l : Label} {es : List Event} (h : FInv s f ph) (hs : step s l = some (s', es)) (he : ∃ e ∈ es, e.drops = true) : Broken s' := by
  obtain ⟨f', ph', hf', -, hst⟩ := step_front h hs
  have hd : ∃ d, es.foldl stEv (stOf f ph) d = .dropped := by
    clear hst hf'
    obtain ⟨e, he, hdr⟩ := he
    simp only [step] at hs
    split at hs
    · cases hs
    cases l <;> simp only [stepLive, stepGo, stepGive, stepGiveInline, stepReject, stepMark, stepPass, stepPassReject, accessEx] at hs
    all_goals (repeat' split at hs) <;> cases hs <;> simp at he
    all_goals first
      | (rcases he with rfl | rfl <;> simp [Event.drops] at hdr)
      | (subst he; first | (simp [Event.drops] at hdr; done) | exact ⟨_, by simp only [List.foldl, stEv, upd_apply]; rw [if_pos rfl]⟩)
      | skip
    all_goals exact ⟨_, if_pos rfl⟩
  obtain ⟨d, hd⟩ := hd
  rw [← hst] at hd
  obtain ⟨rfl, rfl⟩ := stOf_stuck hd
  exact ⟨f', hf'⟩

theorem reach_broken {ls : List Label} {s : State} {es : List Event} (h : run step init ls = some (s, es)) (he : ∃ e ∈ es, e.drops = true) : Broken s := by
  have := run_inv_hist (step := step) (fun s hist => (∃ f ph, FInv s f ph) ∧ ((∃ e ∈ hist, e.drops = true) → Broken s)) (fun s l s' hist es h hs => by
    obtain ⟨⟨f, ph, hf⟩, hb⟩ := h
    obtain ⟨f', ph', hf', -⟩ := step_front hf hs
    refine ⟨⟨f', ph', hf'⟩, ?_⟩
    rintro ⟨e, he, hdr⟩
    rcases List.mem_append.1 he with he | he
    · exact (step_broken (hb ⟨e, he, hdr⟩) hs).1
    · exact step_breaks hf hs ⟨e, he, hdr⟩) (hist := []) ⟨⟨0, .idle, FInv.init⟩, by simp⟩ h
  exact this.2 (by simpa using he)

end Verif.SerialCont
