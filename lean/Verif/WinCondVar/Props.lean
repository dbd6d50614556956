import Verif.WinCondVar.Live
/-!
# C53: the condition variable on Windows

Runs with any number `n` of threads, and semaphores that hold up to `M` tokens (`LONG_MAX`).
-/

set_option linter.unusedSimpArgs false

namespace Verif.WinCondVar

/-- Every history follows the specification, as long as fewer than `M / 2` waits have been begun: the user's mutex is unlocked during a wait and locked again
when it returns, no thread is woken without a call of a notify function during its wait, waits without a limit do not time out, and nothing overflows. -/
theorem history_conforms (n M : Nat) (ls : List Label) (s : State) (es : List Event) (h : run (step M) (init n) ls = some (s, es)) (hM : 2 * begun es < M) :
    Accepts specNext Book.init es := run_accepts (Rel.init n) (by simpa [Book.init] using hM) h

/-- In the same runs the client makes no mistake, so that the specification says something about every event. -/
theorem history_meant (n M : Nat) (ls : List Label) (s : State) (es : List Event) (h : run (step M) (init n) ls = some (s, es)) (hM : 2 * begun es < M) :
    ∃ q, specState specNext Book.init es = some q ∧ q.owner = s.mutex ∧ q.entered = begun es := by
  obtain ⟨q, h1, h2, h3⟩ := run_spec (Rel.init n) (by simpa [Book.init] using hM) h
  exact ⟨q, h1, h2.owner, by simpa [Book.init] using h3⟩

/-- Thread `t` locks the mutex and begins a wait without a limit. -/
def beginWait (t : Nat) : List Label := [.lock t, .enter t false, .release t]
/-- Thread 4 calls a notify function and finds somebody to notify. -/
def noti (all : Bool) : List Label := [.notify 4 all, .act 4]

/-- Two threads wait; one notification wakes the second. The hypotheses are met. -/
example : ∃ s, run (step 1000) (init 5) (beginWait 0 ++ beginWait 1 ++ noti false ++ [.pass 1, .tryWake 1, .remove 1, .relock 1]) = some (s,
    [.locked 0, .entered 0 false, .released 0, .locked 1, .entered 1 false, .released 1, .notify 4 false true, .woke 1, .returned 1 .notified]) := ⟨_, rfl⟩
example : 2 * begun [.locked 0, .entered 0 false, .released 0, .locked 1, .entered 1 false, .released 1, .notify 4 false true, .woke 1, .returned 1 .notified] < 1000 := by
  decide
/-- A wake-up without a notification is not in the specification. -/
example : ¬ Accepts specNext Book.init [.locked 0, .entered 0 false, .released 0, .woke 0] := by decide
example : ¬ Accepts specNext Book.init [.locked 0, .entered 0 false, .released 0, .returned 0 .timeout] := by decide

/-- If thread `t` waits, and since it began to wait more calls of `notify_one` found somebody to notify than threads have been woken, then some waiting thread
can wake up by at most three steps of its own. What is missing for `notify_one`: that it is a thread that was waiting when `notify_one` was called
(`stolen_wakeup`). -/
theorem notify_one_wakes_partial (n M : Nat) (ls : List Label) (s : State) (es : List Event) (q : Book) (t : Nat) (timed noted : Bool) (posts wakes : Nat)
    (h : run (step M) (init n) ls = some (s, es)) (hM : 2 * begun es < M) (hq : specState specNext Book.init es = some q)
    (hw : s.waits t = true) (hp : q.ph t = .inside timed noted posts wakes) (hlt : wakes < posts) :
    ∃ u ls' s' es', (∀ l ∈ ls', l.tid = u ∧ l.isWait = true) ∧ ls'.length ≤ 3 ∧ run (step M) s ls' = some (s', es') ∧ Event.woke u ∈ es' := by
  have R := run_state (Rel.init n) (by simpa [Book.init] using hM) h hq
  cases hx : s.ts[t]? with
  | none => simp [State.waits, hx] at hw
  | some x =>
    simp [State.waits, hx] at hw
    obtain ⟨u, y, -, -, ls1, s1, es1, i1, i2, i3, i4, -⟩ := someone_wakes (M := M) R hx hw (Or.inr (by simpa [hp, Phase.posts, Phase.wakes] using hlt))
    exact ⟨u, ls1, s1, es1, i1, i2, i3, i4⟩

/-- The hypotheses are met: two threads wait, and `notify_one` was called once. -/
example : ∃ s es q, run (step 1000) (init 5) (beginWait 0 ++ beginWait 1 ++ noti false) = some (s, es) ∧ specState specNext Book.init es = some q ∧
    s.waits 0 = true ∧ q.ph 0 = .inside false true 1 0 := ⟨_, _, _, rfl, rfl, by decide, by decide⟩

/-- A thread that waits when `notify_all` finds somebody to notify can from then on always wake up by at most three steps of its own, until it has: whatever
happens after the call, if it still waits and has not begun another wait. -/
theorem notify_all_wakes (n M : Nat) (ls1 ls2 : List Label) (s1 s2 s3 : State) (es1 es3 : List Event) (u t : Nat)
    (h1 : run (step M) (init n) ls1 = some (s1, es1)) (h2 : step M s1 (.act u) = some (s2, [.notify u true true])) (h3 : run (step M) s2 ls2 = some (s3, es3))
    (hM : 2 * (begun es1 + begun es3) < M) (hl : ∀ timed, Event.entered t timed ∉ es3) (hw3 : s3.waits t = true) :
    ∃ ls' s' es', (∀ l ∈ ls', l.tid = t ∧ l.isWait = true) ∧ ls'.length ≤ 3 ∧ run (step M) s3 ls' = some (s', es') ∧ Event.woke t ∈ es' := by
  obtain ⟨q1, i1, R1, e1⟩ := run_spec (Rel.init n) (by simp [Book.init]; omega) h1
  have e1' : q1.entered = begun es1 := by simpa [Book.init] using e1
  obtain ⟨q2, i2, R2, e2⟩ := run_spec (es := [.notify u true true] ++ []) R1 (by simp [begun]; omega) (run_step (ls := []) h2 rfl)
  have e2' : q2.entered = begun es1 := by simpa [begun, e1'] using e2
  obtain ⟨q3, i3, R3, e3⟩ := run_spec R2 (by omega) h3
  have hcur : s2.cur = none := by
    simp only [step] at h2
    split at h2
    · simp only [stepT] at h2
      split at h2
      · split at h2
        · cases h2
        · simp only [Option.some.injEq, Prod.mk.injEq, List.cons.injEq, Event.notify.injEq] at h2
          obtain ⟨rfl, ⟨-, rfl, -⟩, -⟩ := h2
          rfl
      · cases h2
    · cases h2
  have hold : Old s2 t := by
    intro x hx g hg
    have hin := (R2.thread t x hx).inOk hg
    exact ⟨R2.epoch g hin.lt, by rw [hcur]; simp⟩
  have hold3 := run_old R2 (by omega) hold h3 hl ⟨q3, i3⟩
  cases hx : s3.ts[t]? with
  | none => simp [State.waits, hx] at hw3
  | some x =>
    simp [State.waits, hx] at hw3
    obtain ⟨g, hg⟩ := waits_inG hw3
    obtain ⟨ls', s', es', i1, i2, i3, i4, -⟩ := WakesUp.old (M := M) R3 hx hg (hold3 x hx g hg).2
    exact ⟨ls', s', es', i1, i2, i3, i4⟩

/-- The hypotheses are met: threads 0 and 1 wait, thread 4 calls `notify_all`, thread 2 begins to wait, thread 1 wakes up, and thread 0 still waits. -/
example : ∃ s1 s2 s3 es1 es3, run (step 1000) (init 5) (beginWait 0 ++ beginWait 1 ++ [.notify 4 true]) = some (s1, es1) ∧
    step 1000 s1 (.act 4) = some (s2, [.notify 4 true true]) ∧ run (step 1000) s2 (beginWait 2 ++ [.pass 1, .tryWake 1]) = some (s3, es3) ∧
    s1.waits 0 = true ∧ s3.waits 0 = true ∧ 2 * (begun es1 + begun es3) < 1000 := ⟨_, _, _, _, _, rfl, rfl, rfl, by decide, by decide, by decide⟩

/-- If a notify function finds nobody to notify, then all waiting threads, if any, have been notified already: they can all wake up by steps of their own.
What is missing: that it stays so when other threads begin to wait (`notify_all_misses`). -/
theorem unposted_all_wake_partial (n M : Nat) (ls : List Label) (s s1 : State) (es : List Event) (u : Nat) (all : Bool)
    (h : run (step M) (init n) ls = some (s, es)) (hM : 2 * begun es < M) (hn : step M s (.notify u all) = some (s1, [.notify u all false])) :
    ∃ ls' s' es', (∀ l ∈ ls', l.isWait = true) ∧ run (step M) s ls' = some (s', es') ∧ ∀ t, s'.waits t = false := by
  obtain ⟨q, -, R, e⟩ := run_spec (Rel.init n) (by simpa [Book.init] using hM) h
  have h0 : s.total = 0 := by
    simp only [step] at hn
    split at hn
    · simp only [stepT] at hn
      split at hn
      · split at hn
        · assumption
        · simp at hn
      · cases hn
    · cases hn
  have e' : q.entered = begun es := by simpa [Book.init] using e
  obtain ⟨ls', s', es', i1, i2, i3, -⟩ := all_wake (M := M) _ rfl R (by omega) h0
  refine ⟨ls', s', es', i1, i2, ?_⟩
  intro t
  cases hx : s'.ts[t]? with
  | none => simp [State.waits, hx]
  | some x =>
    rw [cnt_eq_zero] at i3
    simp [State.waits, hx, i3 t x hx]

/-- The hypotheses are met with a waiting thread. -/
example : ∃ s s1 es, run (step 1000) (init 5) (beginWait 0 ++ noti false) = some (s, es) ∧
    step 1000 s (.notify 4 true) = some (s1, [.notify 4 true false]) ∧ s.waits 0 = true := ⟨_, _, _, rfl, rfl, by decide⟩

/-- How many threads were woken. -/
def woken (es : List Event) : Nat := es.countP fun
  | .woke _ => true
  | _ => false

/-- How many calls of `notify_one` found somebody to notify. -/
def postedOne (es : List Event) : Nat := es.countP fun
  | .notify _ false true => true
  | _ => false

structure NoAll (s : State) (h : List Event) : Prop where
  cur : (s.cur = none ∧ s.epochs = 0) ∨ s.cur = some 0
  ent : ∀ g, (s.ent g).epoch = 0
  acting : ∀ (t : Nat) (x : Thread), s.ts[t]? = some x → x.pc ≠ .acting true
  le : woken h + s.wake 0 ≤ postedOne h

theorem NoAll.wakeSem {s : State} {h : List Event} (I : NoAll s h) : s.wakeSem = 0 := by
  rcases I.cur with ⟨h1, h2⟩ | h1 <;> simp [State.wakeSem, *]

theorem acting_set {s : State} {t : Nat} {x y : Thread} (hx : s.ts[t]? = some x) (h : ∀ (t : Nat) (x : Thread), s.ts[t]? = some x → x.pc ≠ .acting true)
    (hy : y.pc ≠ .acting true) : ∀ (u : Nat) (z : Thread), (s.ts.set t y)[u]? = some z → z.pc ≠ .acting true := by
  intro u z hz
  rcases get_set hx hz with ⟨rfl, rfl⟩ | ⟨-, h2⟩
  · exact hy
  · exact h u z h2

theorem stepT_noAll {M : Nat} {s s' : State} {t : Nat} {x : Thread} {l : Label} {h es : List Event} (I : NoAll s h) (hx : s.ts[t]? = some x)
    (hl : ∀ u, l ≠ .notify u true) (hs : stepT M s t x l = some (s', es)) : NoAll s' (h ++ es) := by
  have hW := I.wakeSem
  obtain ⟨I1, I2, I3, I4⟩ := I
  have hle : ∀ k, post M k 1 ≤ k + 1 := by intro k; simp only [post]; split <;> omega
  cases l <;> simp only [stepT] at hs
  case lock _ => split at hs <;> cases hs; exact ⟨I1, I2, I3, by simpa [woken, postedOne, State.pc] using I4⟩
  case unlock _ => split at hs <;> cases hs; exact ⟨I1, I2, I3, by simpa [woken, postedOne, State.pc] using I4⟩
  case enter _ timed =>
    split at hs
    · split at hs <;> cases hs
      · exact ⟨I1, I2, I3, by simpa [woken, postedOne, State.pc] using I4⟩
      · simp only [State.enter, hW]
        have hk : (if s.cur = none then upd s.wake 0 0 else s.wake) 0 ≤ s.wake 0 := by split <;> simp
        have hk' : woken (h ++ [.entered t timed]) = woken h := by simp [woken]
        have hk'' : postedOne (h ++ [.entered t timed]) = postedOne h := by simp [postedOne]
        split
        · refine ⟨Or.inr rfl, ?_, acting_set hx I3 (by simp), by rw [hk', hk'']; simp only; omega⟩
          intro g; simp only [upd_apply]; split <;> simp [I2]
        · refine ⟨Or.inr rfl, ?_, acting_set hx I3 (by simp), by rw [hk', hk'']; simp only; omega⟩
          intro g; simp only [upd_apply]; split <;> simp [I2]
    · cases hs
  case release _ =>
    split at hs <;> cases hs
    exact ⟨I1, I2, acting_set hx I3 (by simp), by simpa [woken, postedOne, State.pc] using I4⟩
  case pass _ =>
    split at hs
    · split at hs <;> cases hs
      refine ⟨I1, ?_, acting_set hx I3 (by simp), by simpa [woken, postedOne, State.pc] using I4⟩
      intro g; simp only [upd_apply]; split <;> simp [I2]
    · cases hs
  case timeout _ =>
    split at hs
    · split at hs <;> cases hs
      exact ⟨I1, I2, acting_set hx I3 (by simp), by simpa [woken, postedOne, State.pc] using I4⟩
    · cases hs
  case interrupt _ =>
    split at hs <;> cases hs
    exact ⟨I1, I2, acting_set hx I3 (by simp), by simpa [woken, postedOne, State.pc] using I4⟩
  case tryWake _ =>
    split at hs
    · split at hs <;> cases hs
      · exact ⟨I1, I2, acting_set hx I3 (by simp), by simpa [woken, postedOne, State.pc] using I4⟩
      · rename_i hw
        refine ⟨I1, I2, acting_set hx I3 (by simp), ?_⟩
        simp [woken, postedOne, I2] at *; omega
    · cases hs
  case remove _ =>
    split at hs <;> cases hs
    refine ⟨I1, ?_, acting_set hx I3 (by simp), by simpa [woken, postedOne, State.pc] using I4⟩
    intro g; simp only [upd_apply]; split <;> simp [I2]
  case relock _ =>
    split at hs
    · split at hs <;> cases hs
      exact ⟨I1, I2, acting_set hx I3 (by simp), by simpa [woken, postedOne, State.pc] using I4⟩
    · cases hs
  case notify u all =>
    cases all
    · split at hs
      · split at hs <;> cases hs
        · exact ⟨I1, I2, I3, by simpa [woken, postedOne, State.pc] using I4⟩
        · exact ⟨I1, I2, acting_set hx I3 (by simp), by simpa [woken, postedOne, State.pc] using I4⟩
      · cases hs
    · exact absurd rfl (hl u)
  case act _ =>
    split at hs
    · rename_i all hp
      cases all
      · split at hs <;> cases hs
        · exact ⟨I1, I2, acting_set hx I3 (by simp), by simpa [woken, postedOne, State.pc] using I4⟩
        · refine ⟨I1, ?_, acting_set hx I3 (by simp), ?_⟩
          · intro g; simp only [State.pc, State.one, Bool.false_eq_true, if_false]; split <;> simp [Entry.release, I2]
          · have := hle (s.wake 0)
            simp only [State.pc, State.one, State.wakeWaiters, Bool.false_eq_true, if_false]
            rcases I1 with ⟨i, -⟩ | i <;> simp [woken, postedOne, i] at * <;> omega
      · exact absurd hp (I3 t x hx)
    · cases hs

/-- Without `notify_all` at most one thread is woken for every call of `notify_one` that found somebody to notify. -/
theorem wakes_le_notifies (n M : Nat) (ls : List Label) (s : State) (es : List Event) (hl : ∀ u, Label.notify u true ∉ ls)
    (h : run (step M) (init n) ls = some (s, es)) : woken es ≤ postedOne es := by
  suffices ∀ (ls : List Label) (s0 : State) (h0 es : List Event), (∀ u, Label.notify u true ∉ ls) → NoAll s0 h0 → run (step M) s0 ls = some (s, es) →
      NoAll s (h0 ++ es) by
    have := (this ls (init n) [] es hl ⟨Or.inl ⟨rfl, rfl⟩, fun _ => rfl, ?_, by simp [woken, postedOne, init]⟩ h).le
    · simp only [List.nil_append] at this; omega
    · intro t x hx
      simp only [init, List.getElem?_replicate] at hx
      split at hx <;> cases hx
      simp
  intro ls
  induction ls with
  | nil =>
    intro s0 h0 es _ I hr
    simp only [run_nil, Option.some.injEq, Prod.mk.injEq] at hr
    obtain ⟨rfl, rfl⟩ := hr
    simpa using I
  | cons l ls ih =>
    intro s0 h0 es hl I hr
    obtain ⟨m, es1, es2, h1, h2, rfl⟩ := run_cons hr
    rw [← List.append_assoc]
    refine ih m (h0 ++ es1) es2 (fun u hu => hl u (by simp [hu])) ?_ h2
    simp only [step] at h1
    split at h1
    · rename_i x hx
      exact stepT_noAll I hx (fun u hu => hl u (by simp [hu])) h1
    · cases h1

/-- The hypotheses are met, and the bound is reached. -/
example : ∃ s es, run (step 1000) (init 5) (beginWait 0 ++ beginWait 1 ++ noti false ++ noti false ++ [.pass 1, .tryWake 1, .pass 0, .tryWake 0]) = some (s, es) ∧
    woken es = 2 ∧ postedOne es = 2 := ⟨_, _, rfl, by decide, by decide⟩

/-! ## What does not hold -/

/-- Thread 0 waits alone when `notify_one` is called. Threads 1, 2 and 3 begin to wait afterwards; `notify_one` is called twice more. -/
def stolen : List Label :=
  beginWait 0 ++ noti false ++ beginWait 1 ++ beginWait 2 ++ noti false ++ beginWait 3 ++ noti false ++
    [.pass 1, .tryWake 1, .pass 2, .tryWake 2, .pass 3, .tryWake 3, .pass 0, .tryWake 0, .pass 0, .tryWake 0, .pass 0, .tryWake 0]

/-- No waiting thread can take a step. -/
def Stuck (M : Nat) (s : State) : Prop := ∀ l : Label, l.isWait = true → step M s l = none

theorem stuck_of {M : Nat} {s : State} (h : ∀ t, t < s.ts.length → step M s (.release t) = none ∧ step M s (.pass t) = none ∧ step M s (.tryWake t) = none) :
    Stuck M s := by
  intro l hl
  have hn : s.ts.length ≤ l.tid → step M s l = none := by
    intro hlen; simp [step, List.getElem?_eq_none hlen]
  by_cases hlt : l.tid < s.ts.length
  · cases l <;> simp [Label.isWait] at hl
    · exact (h _ hlt).1
    · exact (h _ hlt).2.1
    · exact (h _ hlt).2.2
  · exact hn (by omega)

/-- `notify_one` need not wake any of the threads that were waiting when it was called: thread 0 was the only one at the first call, yet three calls later
everybody else has been woken, thread 0 sleeps on, and no thread can take a further step inside a wait function. -/
theorem stolen_wakeup : ∃ s es, run (step 1000) (init 5) stolen = some (s, es) ∧
    es.take 4 = [.locked 0, .entered 0 false, .released 0, .notify 4 false true] ∧ postedOne es = 3 ∧ .woke 1 ∈ es ∧ .woke 2 ∈ es ∧ .woke 3 ∈ es ∧ .woke 0 ∉ es ∧
    s.waits 0 = true ∧ Stuck 1000 s := by
  refine ⟨_, _, rfl, rfl, by decide, by decide, by decide, by decide, by decide, by decide, stuck_of ?_⟩
  decide

/-- `notify_all` can miss a waiting thread: it is called while thread 0 waits, and does nothing, because an earlier `notify_one` is still to take effect; threads
that begin to wait later take its effect away from thread 0. -/
theorem notify_all_misses : ∃ s es, run (step 1000) (init 5) (beginWait 0 ++ noti false ++ [.notify 4 true] ++ stolen.drop 5) = some (s, es) ∧
    es.take 5 = [.locked 0, .entered 0 false, .released 0, .notify 4 false true, .notify 4 true false] ∧ .woke 0 ∉ es ∧ s.waits 0 = true ∧ Stuck 1000 s := by
  refine ⟨_, _, rfl, rfl, by decide, by decide, stuck_of ?_⟩
  decide

/-- One call of `notify_one` can wake two threads, when an earlier call was for a thread that then timed out: no thread could go on before the call. -/
theorem one_notify_wakes_two : ∃ s es s', run (step 1000) (init 5)
    ([.lock 0, .enter 0 true, .release 0] ++ noti false ++ [.timeout 0, .remove 0, .relock 0, .unlock 0] ++ beginWait 1 ++ beginWait 3 ++ noti false ++
      [.pass 3, .tryWake 3] ++ beginWait 2) = some (s, es) ∧ Stuck 1000 s ∧
    run (step 1000) s (noti false ++ [.pass 1, .tryWake 1, .pass 2, .tryWake 2]) = some (s', [.notify 4 false true, .woke 1, .woke 2]) := by
  refine ⟨_, _, _, rfl, stuck_of ?_, rfl⟩
  decide

/-- One round: a wait that times out. -/
def round : List Label := [.lock 0, .enter 0 true, .release 0, .timeout 0, .remove 0, .relock 0, .unlock 0]

theorem round_run {M k : Nat} {s : State} {b : Bool} (hk : k < M) (h1 : s.mutex = none) (h2 : s.total = k) (h3 : s.ts = [⟨.idle, b⟩]) :
    ∃ s', run (step M) s round = some (s', [.locked 0, .entered 0 true, .released 0, .returned 0 .timeout, .unlocked 0]) ∧
      s'.mutex = none ∧ s'.total = k + 1 ∧ s'.ts = [⟨.idle, true⟩] := by
  have hne : k ≠ M := by omega
  by_cases hl : (s.gens.getLast?.all fun g => (s.ent g).notified) = true
  · simp [round, run, step, stepT, Label.tid, h1, h3, hne, State.enter, hl, State.pc, h2]
  · simp [round, run, step, stepT, Label.tid, h1, h3, hne, State.enter, hl, State.pc, h2]

theorem rounds_run {M : Nat} (k : Nat) (hk : k ≤ M) : ∃ s b, run (step M) (init 1) (List.replicate k round).flatten =
    some (s, (List.replicate k [Event.locked 0, .entered 0 true, .released 0, .returned 0 .timeout, .unlocked 0]).flatten) ∧
      s.mutex = none ∧ s.total = k ∧ s.ts = [⟨.idle, b⟩] := by
  induction k with
  | zero => exact ⟨init 1, false, rfl, rfl, rfl, rfl⟩
  | succ k ih =>
    obtain ⟨s, b, h1, h2, h3, h4⟩ := ih (by omega)
    obtain ⟨s', i1, i2, i3, i4⟩ := round_run (M := M) (k := k) (by omega) h2 h3 h4
    refine ⟨s', true, ?_, i2, i3, i4⟩
    rw [List.replicate_succ', List.flatten_append, List.replicate_succ', List.flatten_append]
    simpa using run_append h1 (by simpa using i1)

/-- Without a single notification, `M` waits that time out make the next wait overflow the count of waits: `total_count` is not decremented when a wait times
out. -/
theorem timeouts_overflow (M : Nat) : ∃ ls s es, run (step M) (init 1) ls = some (s, es) ∧ Event.overflow 0 ∈ es ∧ begun es = M ∧
    ∀ u all posted, Event.notify u all posted ∉ es := by
  obtain ⟨s, b, h1, h2, h3, h4⟩ := rounds_run M (Nat.le_refl _)
  refine ⟨_, _, _, run_append h1 (ls' := [.lock 0, .enter 0 true]) (run_step (m := { s with mutex := some 0 }) (e := [.locked 0]) ?_
    (run_step (m := { s with mutex := some 0 }) (e := [.overflow 0]) ?_ rfl)), by simp, ?_, ?_⟩
  · simp [step, stepT, Label.tid, h2, h4]
  · simp [step, stepT, Label.tid, h3, h4]
  · rw [begun_append]
    have : ∀ k, begun (List.replicate k [Event.locked 0, .entered 0 true, .released 0, .returned 0 .timeout, .unlocked 0]).flatten = k := by
      intro k
      induction k with
      | zero => rfl
      | succ k ih => rw [List.replicate_succ, List.flatten_cons, begun_append, ih]; simp [begun]; omega
    rw [this]; simp [begun]
  · intro u all posted
    simp

end Verif.WinCondVar
