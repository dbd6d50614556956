import Verif.WinCondVar.Sim2
/-! # The Windows condition variable: waking up -/

set_option linter.unusedSimpArgs false

namespace Verif.WinCondVar

variable {M : Nat}

/-- The thread is in a wait function and neither woken nor timed out nor interrupted yet. -/
def Thread.waits (x : Thread) : Bool :=
  match x.pc with
  | .holding _ | .sem _ | .try_ _ => true
  | _ => false

def State.waits (s : State) (t : Nat) : Bool := (s.ts[t]?.map Thread.waits).getD false

/-- A step of a waiting thread inside the wait function, other than timing out or being interrupted. -/
def Label.isWait : Label → Bool
  | .release _ | .pass _ | .tryWake _ => true
  | _ => false

/-- Thread `u` can wake up by at most three steps of its own. -/
def WakesUp (M : Nat) (s : State) (u : Nat) : Prop :=
  ∃ ls s' es, (∀ l ∈ ls, l.tid = u ∧ l.isWait = true) ∧ ls.length ≤ 3 ∧ run (step M) s ls = some (s', es) ∧ Event.woke u ∈ es ∧
    (∀ e ∈ es, e = .released u ∨ e = .woke u) ∧ s'.total = s.total ∧ cnt Thread.waits s'.ts + 1 = cnt Thread.waits s.ts

theorem WakesUp.last {s : State} {u g : Nat} {x : Thread} (hx : s.ts[u]? = some x) (hp : x.pc = .try_ g) (hw : s.wake (s.ent g).epoch ≠ 0) :
    WakesUp M s u := by
  refine ⟨[.tryWake u], { s.pc u x (.remove g .notified) with wake := upd s.wake (s.ent g).epoch (s.wake (s.ent g).epoch - 1) }, [.woke u] ++ [], ?_, by simp,
    run_step (by simp [step, stepT, Label.tid, hx, hp, hw]) rfl, by simp, by simp, rfl, ?_⟩
  · simp [Label.tid, Label.isWait]
  · have := cnt_set Thread.waits { x with pc := .remove g .notified } hx
    simp [Thread.waits, hp] at this
    simp only [State.pc]; omega

theorem WakesUp.pass {s : State} {u g : Nat} {x : Thread} (hx : s.ts[u]? = some x) (hp : x.pc = .sem g) (hs : (s.ent g).sem ≠ 0)
    (hw : s.wake (s.ent g).epoch ≠ 0) : ∃ ls s' es, (∀ l ∈ ls, l.tid = u ∧ l.isWait = true) ∧ ls.length ≤ 2 ∧ run (step M) s ls = some (s', es) ∧ Event.woke u ∈ es ∧
    (∀ e ∈ es, e = .released u ∨ e = .woke u) ∧ s'.total = s.total ∧ cnt Thread.waits s'.ts + 1 = cnt Thread.waits s.ts := by
  obtain ⟨s1, h1⟩ : ∃ s1, s1 = { s.pc u x (.try_ g) with ent := upd s.ent g { s.ent g with sem := (s.ent g).sem - 1 } } := ⟨_, rfl⟩
  have hx1 : s1.ts[u]? = some { x with pc := .try_ g } := by subst h1; simp [State.pc, getElem?_set_eq hx]
  have hc : cnt Thread.waits s1.ts = cnt Thread.waits s.ts := by
    have := cnt_set Thread.waits { x with pc := .try_ g } hx
    simp [Thread.waits, hp] at this
    subst h1; simp only [State.pc]; omega
  have hw1 : s1.wake (s1.ent g).epoch ≠ 0 := by subst h1; simpa [State.pc] using hw
  refine ⟨[.pass u, .tryWake u], { s1.pc u { x with pc := .try_ g } (.remove g .notified) with wake := upd s1.wake (s1.ent g).epoch (s1.wake (s1.ent g).epoch - 1) },
    [] ++ ([.woke u] ++ []), ?_, by simp, run_step (m := s1) ?_ (run_step ?_ rfl), by simp, by simp, ?_, ?_⟩
  · simp [Label.tid, Label.isWait]
  · subst h1; simp [step, stepT, Label.tid, hx, hp, hs]
  · simp [step, stepT, Label.tid, hx1, hw1]
  · subst h1; rfl
  · have := cnt_set Thread.waits { x with pc := .remove g .notified } hx1
    simp [Thread.waits] at this
    simp only [State.pc]; omega

/-- A token in the entry and one in `wake_sem` are enough. -/
theorem WakesUp.own {s : State} {u g : Nat} {x : Thread} (hx : s.ts[u]? = some x) (hp : x.wants g = true) (hs : (s.ent g).sem ≠ 0)
    (hw : s.wake (s.ent g).epoch ≠ 0) : WakesUp M s u := by
  obtain ⟨pc, timed⟩ := x
  cases pc <;> simp only [Thread.wants, beq_iff_eq] at hp <;> (try cases hp)
  · obtain ⟨s1, h1⟩ : ∃ s1, s1 = { s.pc u ⟨.holding g, timed⟩ (.sem g) with mutex := none } := ⟨_, rfl⟩
    have hx1 : s1.ts[u]? = some ⟨.sem g, timed⟩ := by subst h1; simp [State.pc, getElem?_set_eq hx]
    have hc : cnt Thread.waits s1.ts = cnt Thread.waits s.ts := by
      have := cnt_set Thread.waits ⟨.sem g, timed⟩ hx
      simp [Thread.waits] at this
      subst h1; simp only [State.pc]; omega
    obtain ⟨ls, s', es, i1, i2, i3, i4, i5, i6, i7⟩ := WakesUp.pass (M := M) hx1 rfl (by subst h1; exact hs) (by subst h1; exact hw)
    refine ⟨.release u :: ls, s', [.released u] ++ es, ?_, by simp; omega, run_step ?_ i3, by simp [i4], ?_, ?_, by omega⟩
    · intro l hl
      rcases List.mem_cons.mp hl with rfl | hl
      · simp [Label.tid, Label.isWait]
      · exact i1 l hl
    · subst h1; simp [step, stepT, Label.tid, hx]
    · intro e he
      rcases List.mem_append.mp he with he | he
      · simp at he; exact Or.inl he
      · exact i5 e he
    · rw [i6]; subst h1; rfl
  · obtain ⟨ls, s', es, i1, i2, i3⟩ := WakesUp.pass (M := M) hx rfl hs hw
    exact ⟨ls, s', es, i1, by omega, i3⟩

theorem waits_inG {x : Thread} (h : x.waits = true) : ∃ g, x.inG g = true := by
  obtain ⟨pc, timed⟩ := x
  cases pc <;> simp_all [Thread.waits, Thread.inG]

/-- A thread waiting since before the last `notify_all` that found somebody can wake up by itself. -/
theorem WakesUp.old {s : State} {q : Book} {u g : Nat} {x : Thread} (R : Rel s q) (hx : s.ts[u]? = some x) (hg : x.inG g = true)
    (hc : s.cur ≠ some (s.ent g).epoch) : WakesUp M s u := by
  have hin := (R.thread u x hx).inOk hg
  have h1 := R.oldSem g hin.lt hc
  have h2 := R.oldWake _ (R.epoch g hin.lt) hc
  have h3 := cnt_pos hx (inG_inE (f := s.ent) hg)
  cases hwt : x.wants g with
  | true =>
    have := cnt_pos hx hwt
    exact WakesUp.own hx hwt (by omega) (by omega)
  | false =>
    have hp : x.pc = .try_ g := by
      obtain ⟨pc, timed⟩ := x
      cases pc <;> simp_all [Thread.wants, Thread.inG]
    exact WakesUp.last hx hp (by omega)

theorem someone_wakes {s : State} {q : Book} {t : Nat} {x : Thread} (R : Rel s q) (hx : s.ts[t]? = some x) (hw : x.waits = true)
    (h : s.total = 0 ∨ (q.ph t).wakes < (q.ph t).posts) : ∃ u y, s.ts[u]? = some y ∧ y.waits = true ∧ WakesUp M s u := by
  obtain ⟨g, hg⟩ := waits_inG hw
  have hin := (R.thread t x hx).inOk hg
  by_cases hc : s.cur = some (s.ent g).epoch
  · have hgen := hin.listed hc
    have h1 := R.gens g hgen
    have h2 := R.cur _ hc
    have h3 := cnt_pos hx hg
    have h4 := cnt_pos hx (inG_inE (f := s.ent) hg)
    have h5 := hin.wake hgen
    have h6 := hin.sem hgen
    have hwake : s.wake (s.ent g).epoch ≠ 0 := by omega
    by_cases hhas : cnt (Thread.has g) s.ts = 0
    · refine ⟨t, x, hx, hw, ?_⟩
      cases hwt : x.wants g with
      | true => exact WakesUp.own hx hwt (by omega) hwake
      | false =>
        have hp : x.has g = true := by
          obtain ⟨pc, timed⟩ := x
          cases pc <;> simp_all [Thread.wants, Thread.inG, Thread.has]
        have := cnt_pos hx hp
        omega
    · obtain ⟨u, y, hy, hh⟩ := exists_of_cnt_pos (Nat.pos_of_ne_zero hhas)
      have hp : y.pc = .try_ g := by
        obtain ⟨pc, timed⟩ := y
        cases pc <;> simp_all [Thread.has]
      exact ⟨u, y, hy, by simp [Thread.waits, hp], WakesUp.last hy hp hwake⟩
  · exact ⟨t, x, hx, hw, WakesUp.old R hx hg hc⟩

/-- Thread `t` is in entry `g`, of a `wake_sem` that notify functions no longer use, or it no longer waits. -/
def Old (s : State) (t : Nat) : Prop :=
  ∀ x, s.ts[t]? = some x → ∀ g, x.inG g = true → (s.ent g).epoch < s.epochs ∧ s.cur ≠ some (s.ent g).epoch

/-- What a step does to the epochs. -/
structure Frame (s s' : State) (es : List Event) : Prop where
  ent : ∀ g, g < s.ents → (s'.ent g).epoch = (s.ent g).epoch
  epochs : s.epochs ≤ s'.epochs
  cur : s'.cur = s.cur ∨ s'.cur = none ∨ s'.cur = some s.epochs
  ts : ∀ (t : Nat) (x' : Thread) (g : Nat), s'.ts[t]? = some x' → x'.inG g = true →
    (∃ x, s.ts[t]? = some x ∧ x.inG g = true) ∨ ∃ timed, Event.entered t timed ∈ es

theorem frame_pc {s : State} {t : Nat} {x y : Thread} {es : List Event} (hx : s.ts[t]? = some x)
    (hy : ∀ g, y.inG g = true → x.inG g = true ∨ ∃ timed, Event.entered t timed ∈ es) : ∀ (u : Nat) (x' : Thread) (g : Nat), (s.ts.set t y)[u]? = some x' → x'.inG g = true →
    (∃ x, s.ts[u]? = some x ∧ x.inG g = true) ∨ ∃ timed, Event.entered u timed ∈ es := by
  intro u x' g hu hg
  rcases get_set hx hu with ⟨rfl, rfl⟩ | ⟨h1, h2⟩
  · rcases hy g hg with h | h
    · exact Or.inl ⟨x, hx, h⟩
    · exact Or.inr h
  · exact Or.inl ⟨x', h2, hg⟩

theorem upd_epoch {s : State} {g : Nat} {y : Entry} (hy : y.epoch = (s.ent g).epoch) (h : Nat) : (upd s.ent g y h).epoch = (s.ent h).epoch := by
  simp only [upd_apply]; split
  · rename_i e; rw [hy, e]
  · rfl

theorem same_ts {s : State} {es : List Event} : ∀ (t : Nat) (x' : Thread) (g : Nat), s.ts[t]? = some x' → x'.inG g = true →
    (∃ x, s.ts[t]? = some x ∧ x.inG g = true) ∨ ∃ timed, Event.entered t timed ∈ es := fun _ x' _ h1 h2 => Or.inl ⟨x', h1, h2⟩

theorem wakeSem_cur (s : State) : some s.wakeSem = s.cur ∨ some s.wakeSem = (none : Option Nat) ∨ some s.wakeSem = some s.epochs := by
  cases h : s.cur <;> simp [State.wakeSem, h]

theorem stepT_frame {s s' : State} {t : Nat} {x : Thread} {l : Label} {es : List Event} (hx : s.ts[t]? = some x) (hs : stepT M s t x l = some (s', es)) :
    Frame s s' es := by
  cases l <;> simp only [stepT] at hs
  case lock _ => split at hs <;> cases hs; exact ⟨fun _ _ => rfl, Nat.le_refl _, Or.inl rfl, same_ts⟩
  case unlock _ => split at hs <;> cases hs; exact ⟨fun _ _ => rfl, Nat.le_refl _, Or.inl rfl, same_ts⟩
  case enter _ timed =>
    split at hs
    · split at hs <;> cases hs
      · exact ⟨fun _ _ => rfl, Nat.le_refl _, Or.inl rfl, same_ts⟩
      · refine ⟨?_, ?_, ?_, ?_⟩ <;> simp only [State.enter] <;> split <;> simp only
        · intro g hg; simp only [upd_apply]; rw [if_neg (by omega)]
        · intro g _; apply upd_epoch; rfl
        · split <;> omega
        · split <;> omega
        · exact wakeSem_cur s
        · exact wakeSem_cur s
        · exact frame_pc hx (fun g _ => Or.inr ⟨timed, by simp⟩)
        · exact frame_pc hx (fun g _ => Or.inr ⟨timed, by simp⟩)
    · cases hs
  case release _ =>
    split at hs <;> cases hs
    rename_i g hp
    exact ⟨fun _ _ => rfl, Nat.le_refl _, Or.inl rfl, frame_pc hx (fun h hh => Or.inl (by simpa [Thread.inG, hp] using hh))⟩
  case pass _ =>
    split at hs
    · rename_i g hp
      split at hs <;> cases hs
      exact ⟨fun h _ => by apply upd_epoch; rfl, Nat.le_refl _, Or.inl rfl, frame_pc hx (fun h hh => Or.inl (by simpa [Thread.inG, hp] using hh))⟩
    · cases hs
  case timeout _ =>
    split at hs
    · rename_i g hp
      split at hs <;> cases hs
      exact ⟨fun _ _ => rfl, Nat.le_refl _, Or.inl rfl, frame_pc hx (fun h hh => by simp [Thread.inG] at hh)⟩
    · cases hs
  case interrupt _ =>
    split at hs <;> cases hs
    exact ⟨fun _ _ => rfl, Nat.le_refl _, Or.inl rfl, frame_pc hx (fun h hh => by simp [Thread.inG] at hh)⟩
  case tryWake _ =>
    split at hs
    · rename_i g hp
      split at hs <;> cases hs
      · exact ⟨fun _ _ => rfl, Nat.le_refl _, Or.inl rfl, frame_pc hx (fun h hh => Or.inl (by simpa [Thread.inG, hp] using hh))⟩
      · exact ⟨fun _ _ => rfl, Nat.le_refl _, Or.inl rfl, frame_pc hx (fun h hh => by simp [Thread.inG] at hh)⟩
    · cases hs
  case remove _ =>
    split at hs <;> cases hs
    exact ⟨fun h _ => by apply upd_epoch; rfl, Nat.le_refl _, Or.inl rfl, frame_pc hx (fun h hh => by simp [Thread.inG] at hh)⟩
  case relock _ =>
    split at hs
    · split at hs <;> cases hs
      exact ⟨fun _ _ => rfl, Nat.le_refl _, Or.inl rfl, frame_pc hx (fun h hh => by simp [Thread.inG] at hh)⟩
    · cases hs
  case notify _ all =>
    split at hs
    · split at hs <;> cases hs
      · exact ⟨fun _ _ => rfl, Nat.le_refl _, Or.inl rfl, same_ts⟩
      · exact ⟨fun _ _ => rfl, Nat.le_refl _, Or.inl rfl, frame_pc hx (fun h hh => by simp [Thread.inG] at hh)⟩
    · cases hs
  case act _ =>
    split at hs
    · rename_i all hp
      split at hs <;> cases hs
      · exact ⟨fun _ _ => rfl, Nat.le_refl _, Or.inl rfl, frame_pc hx (fun h hh => by simp [Thread.inG] at hh)⟩
      · cases all
        · refine ⟨fun g _ => ?_, Nat.le_refl _, Or.inl rfl, frame_pc hx (fun h hh => by simp [Thread.inG] at hh)⟩
          simp only [State.pc, State.one]; simp only [Bool.false_eq_true, if_false]; split <;> rfl
        · refine ⟨fun g _ => ?_, Nat.le_refl _, Or.inr (Or.inl rfl), frame_pc hx (fun h hh => by simp [Thread.inG] at hh)⟩
          simp only [State.pc, State.all, if_true]; split <;> rfl
    · cases hs

theorem step_old {s s' : State} {q : Book} {t : Nat} {l : Label} {es : List Event} (R : Rel s q) (h : Old s t) (hs : step M s l = some (s', es))
    (hl : ∀ timed, Event.entered t timed ∉ es) : Old s' t := by
  simp only [step] at hs
  split at hs
  · rename_i x hx
    have F := stepT_frame hx hs
    intro x' hx' g hg
    rcases F.ts t x' g hx' hg with ⟨y, hy, hyg⟩ | ⟨timed, h'⟩
    · have hlt := ((R.thread t y hy).inOk hyg).lt
      obtain ⟨h1, h2⟩ := h y hy g hyg
      rw [F.ent g hlt]
      refine ⟨Nat.lt_of_lt_of_le h1 F.epochs, ?_⟩
      rcases F.cur with h | h | h <;> rw [h]
      · exact h2
      · simp
      · simp; omega
    · exact absurd h' (hl timed)
  · cases hs

theorem run_old {s s' : State} {q : Book} {t : Nat} {ls : List Label} {es : List Event} (R : Rel s q) (hM : 2 * (q.entered + begun es) < M) (h : Old s t)
    (hr : run (step M) s ls = some (s', es)) (hl : ∀ timed, Event.entered t timed ∉ es) (hq : ∃ q', specState specNext q es = some q') : Old s' t := by
  induction ls generalizing s q es with
  | nil => simp only [run_nil, Option.some.injEq, Prod.mk.injEq] at hr; exact hr.1 ▸ h
  | cons l ls ih =>
    obtain ⟨m, es1, es2, h1, h2, rfl⟩ := run_cons hr
    obtain ⟨q', hq⟩ := hq
    rw [begun_append] at hM
    obtain ⟨q1, ⟨R1, hq1⟩, hs⟩ := (follows_entered (step_follows R (by omega) h1)).specState_append hq
    exact ih R1 (by omega) (step_old R h h1 (fun timed h => hl timed (by simp [h]))) h2 (fun timed h => hl timed (by simp [h])) ⟨q', hs⟩

/-- No event of the model is a mistake of the client. -/
theorem stepT_next {s s' : State} {q : Book} {t : Nat} {x : Thread} {l : Label} {es : List Event} (R : Rel s q) (hx : s.ts[t]? = some x)
    (hs : stepT M s t x l = some (s', es)) : ClientOk specNext q es := by
  have hok := R.thread t x hx
  have hown := R.owner
  cases l <;> simp only [stepT] at hs <;> (repeat' (split at hs)) <;> cases hs <;> simp_all [ClientOk, specNext, must, ThreadOk] <;> (try split) <;> (try trivial)
  rename_i h; split at h <;> cases h

theorem clientOk_spec {P : Book → Prop} {q : Book} {es : List Event} (h : Follows specNext P q es) (hc : ClientOk specNext q es) :
    ∃ q', specState specNext q es = some q' ∧ P q' := by
  induction es generalizing q with
  | nil => exact ⟨q, rfl, h⟩
  | cons e es ih =>
    simp only [Follows, ClientOk, specState] at *
    cases hn : specNext q e with
    | ok q1 => simp only [hn] at h hc ⊢; exact ih h hc
    | undefined => simp only [hn] at hc
    | illegal => simp only [hn] at h

theorem specState_append {q q1 : Book} {es es' : List Event} (h : specState specNext q es = some q1) :
    specState specNext q (es ++ es') = specState specNext q1 es' := by
  induction es generalizing q with
  | nil => simp only [specState, Option.some.injEq] at h; rw [h]; rfl
  | cons e es ih =>
    simp only [List.cons_append, specState] at *
    cases hn : specNext q e with
    | ok q2 => simp only [hn] at h ⊢; exact ih h
    | undefined => simp [hn] at h
    | illegal => simp [hn] at h

/-- The book of a run. -/
theorem run_spec {s s' : State} {q : Book} {ls : List Label} {es : List Event} (R : Rel s q) (hM : 2 * (q.entered + begun es) < M)
    (h : run (step M) s ls = some (s', es)) : ∃ q', specState specNext q es = some q' ∧ Rel s' q' ∧ q'.entered = q.entered + begun es := by
  induction ls generalizing s q es with
  | nil =>
    simp only [run_nil, Option.some.injEq, Prod.mk.injEq] at h
    obtain ⟨rfl, rfl⟩ := h
    exact ⟨q, rfl, R, by simp [begun]⟩
  | cons l ls ih =>
    obtain ⟨m, es1, es2, h1, h2, rfl⟩ := run_cons h
    rw [begun_append] at hM
    have hc : ClientOk specNext q es1 := by
      have h1' := h1
      simp only [step] at h1'
      split at h1'
      · rename_i x hx; exact stepT_next R hx h1'
      · cases h1'
    obtain ⟨q1, i1, i2, i3⟩ := clientOk_spec (follows_entered (step_follows R (by omega) h1)) hc
    obtain ⟨q2, j1, j2, j3⟩ := ih i2 (by omega) h2
    refine ⟨q2, ?_, j2, by rw [begun_append]; omega⟩
    rw [specState_append i1, j1]

/-- While nobody is owed a token less, all waiting threads can wake up by themselves. -/
theorem all_wake {s : State} {q : Book} (n : Nat) (hn : cnt Thread.waits s.ts = n) (R : Rel s q) (hM : 2 * q.entered < M) (h : s.total = 0) :
    ∃ ls s' es, (∀ l ∈ ls, l.isWait = true) ∧ run (step M) s ls = some (s', es) ∧ cnt Thread.waits s'.ts = 0 ∧ (∀ e ∈ es, ∃ u, e = .released u ∨ e = .woke u) := by
  induction n generalizing s q with
  | zero => exact ⟨[], s, [], by simp, rfl, hn, by simp⟩
  | succ n ih =>
    obtain ⟨t, x, hx, hw⟩ := exists_of_cnt_pos (f := Thread.waits) (ts := s.ts) (by omega)
    obtain ⟨u, y, hy, hyw, ls1, s1, es1, i1, i2, i3, i4, i5, i6, i7⟩ := someone_wakes (M := M) R hx hw (Or.inl h)
    have hb : begun es1 = 0 := by
      simp only [begun, List.countP_eq_zero]
      intro e he
      rcases i5 e he with rfl | rfl <;> simp
    obtain ⟨q1, -, R1, hq1⟩ := run_spec R (by omega) i3
    obtain ⟨ls2, s2, es2, j1, j2, j3, j4⟩ := ih (s := s1) (q := q1) (by omega) R1 (by omega) (by omega)
    refine ⟨ls1 ++ ls2, s2, es1 ++ es2, ?_, run_append i3 j2, j3, ?_⟩
    · intro l hl
      rcases List.mem_append.mp hl with hl | hl
      · exact (i1 l hl).2
      · exact j1 l hl
    · intro e he
      rcases List.mem_append.mp he with he | he
      · exact ⟨u, i5 e he⟩
      · exact j4 e he

end Verif.WinCondVar
