import Verif.CondVar.Lemmas
/-!
# C16 and C18: condition variables and interruption

All theorems speak about every schedule of any number of threads, condition variables and mutexes.
-/

namespace Verif.CondVar

/-- **C16, C18 (refinement).** Every history of the library is a history of the atomic condition variable with one interruption flag per thread. In particular
`notify_one` finds nobody (`w = none`) only if no thread that has released its lock inside `wait` is still waiting; `wait` returns (or throws) owning the lock;
`thread_interrupted` is thrown only for a pending request and with interruption enabled, which consumes the request; no interruption point is passed
with interruption enabled and a request pending. -/
theorem history_conforms {n : Nat} {ls : List Label} {s : State} {es : List Event} (h : run step (init n) ls = some (s, es)) :
    Accepts next (specInit n) es := by
  have := (run_sim (init_inv n) h).2.2
  rwa [abs_init] at this

/-- The history determines what the specification says about every thread (it never leaves the contract). -/
theorem history_state {n : Nat} {ls : List Label} {s : State} {es : List Event} (h : run step (init n) ls = some (s, es)) :
    specState next (specInit n) es = some (abs s) := by
  have := (run_sim (init_inv n) h).2.1
  rwa [abs_init] at this

/-- Two threads wait, one is notified, the other interrupted. -/
def demo : List Label :=
  [.lock 0 0, .wait 0 0 0 false, .go 0, .go 0, .go 0, .go 0, .lock 1 0, .wait 1 0 0 true, .go 1, .go 1, .go 1, .go 1,
   .lock 2 0, .unlock 2 0, .notifyOne 2 0 (some 0), .go 0, .go 0, .go 0, .go 0, .unlock 0 0, .interrupt 2 1, .go 2, .go 1, .go 1, .go 1, .go 1]

example : (run step (init 3) demo).map Prod.snd = some
    [.locked 0 0, .waitBegan 0 0 0 false, .locked 1 0, .waitBegan 1 0 0 true, .locked 2 0, .unlocked 2 0, .notifiedOne 2 0 (some 0), .relocked 0 0,
     .returned 0 false, .unlocked 0 0, .requested 2 1, .broadcast 0, .relocked 1 0, .interrupted 1] := by decide

/-- The specification is not trivial: a notification that finds nobody although a thread waits is a violation. -/
example : ¬ Accepts next (specInit 2) [.locked 0 0, .waitBegan 0 0 0 false, .notifiedOne 1 0 none] := by
  intro h; exact absurd h (by decide)
example : ¬ Accepts next (specInit 2) [.requested 1 0, .passed 0] := by intro h; exact absurd h (by decide)
example : ¬ Accepts next (specInit 2) [.requested 1 0, .disable 0, .interrupted 0] := by intro h; exact absurd h (by decide)
example : ¬ Accepts next (specInit 2) [.requested 1 0, .interrupted 0, .interrupted 0] := by intro h; exact absurd h (by decide)
example : ¬ Accepts next (specInit 2) [.locked 0 0, .waitBegan 0 0 0 false, .spurious 0, .returned 0 false] := by intro h; exact absurd h (by decide)

/-- Thread `t` waits on `c` according to the history: it has released `m` inside `wait` and has not been woken. -/
def WaitsOn (n : Nat) (es : List Event) (t c m : Nat) : Prop :=
  ∃ q x timed, specState next (specInit n) es = some q ∧ q.ts[t]? = some x ∧ x.phase = .waiting c m timed

/-- Thread `t` has been woken from a wait which released `m`. -/
def WokenFor (n : Nat) (es : List Event) (t m : Nat) (to : Bool) : Prop :=
  ∃ q x, specState next (specInit n) es = some q ∧ q.ts[t]? = some x ∧ x.phase = .woken m to

/-- The thread has a pending request and interruption is enabled for it. -/
def Due (n : Nat) (es : List Event) (t : Nat) : Prop :=
  ∃ q x, specState next (specInit n) es = some q ∧ q.ts[t]? = some x ∧ x.enabled = true ∧ x.pending = true

/-- Nobody owns the user mutex. -/
def Free (n : Nat) (es : List Event) (m : Nat) : Prop :=
  ∃ q, specState next (specInit n) es = some q ∧ q.mx m = none

/-- The threads inside the library can, by their own steps alone, bring about the event. -/
def CanHappen (s : State) (e : Event) : Prop :=
  ∃ ls s' es, (∀ l ∈ ls, Label.isGo l = true) ∧ run step s ls = some (s', es) ∧ e ∈ es

/-- **C16 (progress).** A woken thread gets out of `wait` as soon as its mutex is free, whatever the other threads were doing: with `thread_interrupted` if it
is due, and otherwise by returning. -/
theorem woken_returns {n : Nat} {ls : List Label} {s : State} {es : List Event} {t m : Nat} {to : Bool}
    (h : run step (init n) ls = some (s, es)) (hw : WokenFor n es t m to) (hm : Free n es m) :
    (Due n es t → CanHappen s (.interrupted t)) ∧ (¬ Due n es t → CanHappen s (.returned t to)) := by
  have hi := (run_sim (init_inv n) h).1
  have hst := history_state h
  obtain ⟨q, x, h1, h2, h3⟩ := hw
  rw [hst] at h1; injection h1 with h1; subst h1
  obtain ⟨q, h4, h5⟩ := hm
  rw [hst] at h4; injection h4 with h4; subst h4
  simp only [abs, List.getElem?_map, Option.map_eq_some_iff] at h2
  obtain ⟨y, hy, rfl⟩ := h2
  have hdone : Done s (outcome t y.en y.rq to) := by
    obtain ⟨pc, en, rq, cur, dm, sc⟩ := y
    cases pc <;> simp only [absT, absPC, Phase.woken.injEq, reduceCtorEq] at h3
    case woke => obtain ⟨rfl, rfl⟩ := h3; exact done_woke hi hy h5
    case clr => obtain ⟨rfl, rfl⟩ := h3; exact done_clr hi hy h5
    case relock => obtain ⟨rfl, rfl⟩ := h3; exact done_relock hi hy h5
  have hdue : Due n es t ↔ (y.en && y.rq) = true := by
    constructor
    · rintro ⟨q, x, a, b, c, d⟩
      rw [hst] at a; injection a with a; subst a
      simp only [abs, List.getElem?_map, hy, Option.map_some, Option.some.injEq] at b
      subst b
      simp only [absT] at c d; simp [c, d]
    · intro e
      simp only [Bool.and_eq_true] at e
      exact ⟨abs s, absT y, hst, by simp [abs, hy], e.1, e.2⟩
  constructor
  · intro e
    have := hdue.1 e
    simp only [outcome, this, if_true] at hdone
    exact hdone
  · intro e
    have : (y.en && y.rq) = false := by
      cases hb : (y.en && y.rq)
      · rfl
      · exact absurd (hdue.2 hb) e
    simp only [outcome, this] at hdone
    exact hdone

theorem WokenFor.getsOut {n : Nat} {ls : List Label} {s : State} {es : List Event} {t m : Nat} {to : Bool} (hw : WokenFor n es t m to)
    (h : run step (init n) ls = some (s, es)) (hm : Free n es m) : CanHappen s (.returned t to) ∨ CanHappen s (.interrupted t) := by
  by_cases hd : Due n es t
  · exact .inr ((woken_returns h hw hm).1 hd)
  · exact .inl ((woken_returns h hw hm).2 hd)

/-- **C16.** No window: a thread that has released its lock inside `wait` is woken by every later `notify_all`,
and gets out of `wait` as soon as the mutex is free. -/
theorem notify_all_wakes {n : Nat} {ls : List Label} {s s' : State} {es es' : List Event} {t u c m : Nat}
    (h : run step (init n) ls = some (s, es)) (hw : WaitsOn n es t c m) (hn : step s (.notifyAll u c) = some (s', es')) :
    WokenFor n (es ++ es') t m false ∧ (Free n (es ++ es') m → CanHappen s' (.returned t false) ∨ CanHappen s' (.interrupted t)) := by
  suffices hwk : WokenFor n (es ++ es') t m false from ⟨hwk, fun hf => hwk.getsOut (run_append h (run_one hn)) hf⟩
  obtain ⟨q, x, timed, h1, h2, h3⟩ := hw
  have h4 : es' = [.notifiedAll u c] := by
    simp only [step] at hn
    split at hn
    · split at hn
      · injection hn with hn; injection hn with _ hn; exact hn.symm
      · simp at hn
    · simp at hn
  subst h4
  refine ⟨{ q with ts := q.ts.map (SThr.wake c) }, x.wake c, ?_, by simp [h2], by simp [SThr.wake, h3]⟩
  rw [specState_append, h1]
  simp [specState, next]

/-- **C16.** `notify_one` wakes a thread whenever one waits: the one it chose has been waiting, and it is no longer waiting afterwards. -/
theorem notify_one_wakes {n : Nat} {ls : List Label} {s s' : State} {es es' : List Event} {t u c m : Nat} {w : Option Nat}
    (h : run step (init n) ls = some (s, es)) (hw : WaitsOn n es t c m) (hn : step s (.notifyOne u c w) = some (s', es')) :
    ∃ v m', w = some v ∧ WaitsOn n es v c m' ∧ WokenFor n (es ++ es') v m' false ∧
      (Free n (es ++ es') m' → CanHappen s' (.returned v false) ∨ CanHappen s' (.interrupted v)) := by
  suffices hwk : ∃ v m', w = some v ∧ WaitsOn n es v c m' ∧ WokenFor n (es ++ es') v m' false by
    obtain ⟨v, m', a, b, d⟩ := hwk
    exact ⟨v, m', a, b, d, fun hf => d.getsOut (run_append h (run_one hn)) hf⟩
  have hrun := run_append h (run_one hn)
  have hacc := history_conforms hrun
  obtain ⟨q, x, timed, h1, h2, h3⟩ := hw
  have h4 : es' = [.notifiedOne u c w] := by
    simp only [step] at hn
    split at hn
    · split at hn
      · cases w with
        | none =>
          simp only at hn
          split at hn
          · injection hn with hn; injection hn with _ hn; exact hn.symm
          · simp at hn
        | some v =>
          simp only at hn
          split at hn
          · split at hn
            · injection hn with hn; injection hn with _ hn; exact hn.symm
            · simp at hn
          · simp at hn
      · simp at hn
    · simp at hn
  subst h4
  have hstate := history_state hrun
  rw [specState_append, h1] at hstate
  simp only [Option.bind_some, specState] at hstate
  cases w with
  | none =>
    have : (q.ts.all fun y => !y.waits c) = false := by
      rw [List.all_eq_false]
      exact ⟨x, List.mem_of_getElem? h2, by simp [SThr.waits, h3]⟩
    simp [next, allow, this] at hstate
  | some v =>
    simp only [next] at hstate
    cases hv : q.ts[v]? with
    | none => simp [hv] at hstate
    | some y =>
      simp only [hv] at hstate
      cases hy : y.phase with
      | waiting c' m' tm =>
        by_cases e : c' = c
        · subst e
          refine ⟨v, m', rfl, ⟨q, y, tm, h1, hv, hy⟩, q.set v (y.wake c'), y.wake c', ?_, ?_, by simp [SThr.wake, hy]⟩
          · rw [specState_append, h1]
            simp [specState, next, hv, allow, SThr.waits, hy]
          · simp only [SState.set, set_get hv, if_true]
        · simp [allow, SThr.waits, hy, e] at hstate
      | out => simp [allow, SThr.waits, hy] at hstate
      | woken _ _ => simp [allow, SThr.waits, hy] at hstate
      | back _ _ => simp [allow, SThr.waits, hy] at hstate

example : ∃ s es, run step (init 3) (demo.take 15) = some (s, es) ∧ WokenFor 3 es 0 0 false ∧ Free 3 es 0 ∧ ¬ Due 3 es 0 ∧ WaitsOn 3 es 1 0 0 := by
  refine ⟨_, _, rfl, ⟨_, _, rfl, rfl, rfl⟩, ⟨_, rfl, by decide⟩, ?_, ⟨_, _, true, rfl, rfl, rfl⟩⟩
  rintro ⟨q, x, a, b, c, d⟩
  injection a with a; subst a
  injection b with b; subst b
  exact absurd d (by decide)

/-- **C18.** A thread that waits with interruption enabled is woken by `interrupt()`: whatever the race between going to sleep and being interrupted,
once the request has been made (and as soon as the mutex is free) `thread_interrupted` comes out of the wait without any further notification. -/
theorem interrupt_wakes {n : Nat} {ls : List Label} {s : State} {es : List Event} {t c m : Nat}
    (h : run step (init n) ls = some (s, es)) (hw : WaitsOn n es t c m) (hd : Due n es t) (hm : Free n es m) :
    CanHappen s (.interrupted t) := by
  have hi := (run_sim (init_inv n) h).1
  have hst := history_state h
  obtain ⟨q, x, timed, h1, h2, h3⟩ := hw
  rw [hst] at h1; injection h1 with h1; subst h1
  obtain ⟨q, h4, h5⟩ := hm
  rw [hst] at h4; injection h4 with h4; subst h4
  obtain ⟨q, z, h6, h7, h8, h9⟩ := hd
  rw [hst] at h6; injection h6 with h6; subst h6
  rw [h2] at h7; injection h7 with h7; subst h7
  simp only [abs, List.getElem?_map, Option.map_eq_some_iff] at h2
  obtain ⟨y, hy, rfl⟩ := h2
  obtain ⟨pc, en, rq, cur, dm, sc⟩ := y
  simp only [absT] at h8 h9; subst h8 h9
  cases pc <;> simp only [absT, absPC, Phase.waiting.injEq, reduceCtorEq] at h3
  case asleep c' m' st tm =>
    obtain ⟨rfl, rfl, rfl⟩ := h3
    have : st = true := (hi.loc t _ hy).set st rfl
    subst this
    exact done_interrupted hi hy h5
  case w3 c' m' st tm =>
    obtain ⟨rfl, rfl, rfl⟩ := h3
    have : st = true := (hi.loc t _ hy).set st rfl
    subst this
    have h1 : step s (.go t) = some ({ setT s t ⟨.asleep c' m' true tm, true, true, cur, dm, sc⟩ with im := upd s.im c' none }, []) := by
      simp [step, hy, go, Thr.at]
    exact Done.step h1 (done_interrupted (sim_step hi h1).1 (c := c') (m := m') (timed := tm) (en := true) (cur := cur) (dm := dm) (sc := sc) (by simp [setT, set_get hy]) h5)

/-- The race: thread 1 has released its lock and is not asleep yet when the request comes. -/
example : ∃ s es, run step (init 2) [.lock 1 0, .wait 1 0 0 false, .go 1, .go 1, .go 1, .interrupt 0 1] = some (s, es) ∧
    WaitsOn 2 es 1 0 0 ∧ Due 2 es 1 ∧ Free 2 es 0 :=
  ⟨_, _, rfl, ⟨_, _, false, rfl, rfl, rfl⟩, ⟨_, _, rfl, rfl, rfl, rfl⟩, ⟨_, rfl, by decide⟩⟩

/-- The calls for `t` to make progress that are not the library's business. -/
def Rests (s : State) (t : Nat) (x : Thr) : Prop :=
  x.pc = .idle ∨ (∃ c m timed, (absT x).phase = .waiting c m timed ∧ ¬ (x.en = true ∧ x.rq = true)) ∨
    (∃ m to r, (absT x).phase = .woken m to ∧ s.mx m = some r ∧ r ≠ t)

/-- **C16, C18 (no deadlock).** The internal mutexes never block the library for good: in every reachable state in which no thread inside `wait` or `interrupt()`
can take a step, each thread is outside the library, or waits for a notification with no deliverable request pending, or waits for its user mutex, which somebody
else owns. -/
theorem no_internal_deadlock {n : Nat} {ls : List Label} {s : State} {es : List Event} (h : run step (init n) ls = some (s, es))
    (hstuck : ∀ t, step s (.go t) = none) : ∀ (t : Nat) x, s.ts[t]? = some x → Rests s t x := by
  have hi := (run_sim (init_inv n) h).1
  have him : ∀ c, s.im c = none := by
    intro c
    cases hc : s.im c with
    | none => rfl
    | some r =>
      obtain ⟨x, hx, e⟩ := hi.im c r hc
      have := hstuck r
      obtain ⟨pc, en, rq, cur, dm, sc⟩ := x
      cases pc <;> simp only [imOf, reduceCtorEq] at e
      case w2 => simp [step, hx, go] at this
      case w3 => simp [step, hx, go] at this
  have hno : ∀ (t : Nat) x, s.ts[t]? = some x → isI1 x.pc = false ∧ isW1 x.pc = false := by
    intro t x hx
    have hst := hstuck t
    have key := hi.i1 t x
    obtain ⟨pc, en, rq, cur, dm, sc⟩ := x
    cases pc <;> (try exact ⟨rfl, rfl⟩)
    case w1 c m st tm =>
      simp [step, hx, go, him] at hst
    case i1 u c =>
      obtain ⟨hne, y, hy, -, -⟩ := key u c hx rfl
      obtain ⟨s', e, -⟩ := i1_go hi hx rfl hy (him c)
      rw [hst] at e; simp at e
  have hdm : ∀ (t : Nat) x, s.ts[t]? = some x → x.dm = none := by
    intro t x hx
    cases hd : x.dm with
    | none => rfl
    | some r =>
      obtain ⟨y, hy, e⟩ := hi.dm t x r hx hd
      have := hno r y hy
      rcases e with ⟨-, e⟩ | ⟨c, e⟩
      · rw [e] at this; simp at this
      · rw [e] at this; simp [isI1] at this
  intro t x hx
  have hst := hstuck t
  have hn := hno t x hx
  have hd := hdm t x hx
  have hl := hi.loc t x hx
  obtain ⟨pc, en, rq, cur, dm, sc⟩ := x
  simp only at hd; subst hd
  cases pc
  case idle => exact .inl rfl
  case w0 c m st tm => cases st <;> cases rq <;> simp [step, hx, go] at hst
  case w1 c m st tm => simp [step, hx, go, him] at hst
  case w2 => simp [step, hx, go] at hst
  case w3 => simp [step, hx, go] at hst
  case woke => simp [step, hx, go, him] at hst
  case clr => simp [step, hx, go] at hst
  case ip => cases en <;> cases rq <;> simp [step, hx, go] at hst
  case i1 => simp [isI1] at hn
  case asleep c m st tm =>
    refine .inr (.inl ⟨c, m, tm, rfl, ?_⟩)
    rintro ⟨e1, e2⟩
    have : st = en := hl.set st rfl
    simp only at e1 e2
    subst this e2
    subst e1
    exact hl.lost rfl rfl rfl
  case relock m to =>
    cases hm : s.mx m with
    | none => simp [step, hx, go, hm] at hst
    | some r =>
      exact .inr (.inr ⟨m, to, r, rfl, hm, fun e => hl.away m rfl (e ▸ hm)⟩)

/-- **C18.** `thread_interrupted` is thrown only in a thread whose request is pending and for which interruption is enabled. -/
theorem interrupted_only_if_due {n : Nat} {ls : List Label} {s : State} {es es' : List Event} {t : Nat}
    (h : run step (init n) ls = some (s, es ++ .interrupted t :: es')) : Due n es t := by
  have hst := history_state h
  rw [specState_append] at hst
  cases hq : specState next (specInit n) es with
  | none => simp [hq] at hst
  | some q =>
    simp only [hq, Option.bind_some, specState, next] at hst
    cases hx : q.ts[t]? with
    | none => simp [hx] at hst
    | some x =>
      simp only [hx] at hst
      have hd : x.due = true := by
        cases hd : x.due with
        | true => rfl
        | false =>
          exfalso
          cases hph : x.phase with
          | out => simp [hph, hd, allow] at hst
          | back m to => simp [hph, hd, allow] at hst
          | waiting c m tm => simp [hph] at hst
          | woken m to => simp [hph] at hst
      simp only [SThr.due, Bool.and_eq_true] at hd
      exact ⟨q, x, hq, hx, hd.1, hd.2⟩

/-- **C18.** No interruption point is passed (and no wait returns) while a request is pending and interruption enabled. -/
theorem not_passed_if_due {n : Nat} {ls : List Label} {s : State} {es es' : List Event} {t : Nat} {e : Event}
    (he : e = .passed t ∨ ∃ to, e = .returned t to) (h : run step (init n) ls = some (s, es ++ e :: es')) : ¬ Due n es t := by
  have hst := history_state h
  rintro ⟨q, x, h1, h2, h3, h4⟩
  rw [specState_append, h1] at hst
  have hd : x.due = true := by simp [SThr.due, h3, h4]
  rcases he with rfl | ⟨to, rfl⟩
  · simp [specState, next, h2, hd, allow] at hst
  · cases hph : x.phase <;> simp [specState, next, h2, hd, hph, allow] at hst

def isInterrupted (t : Nat) : Event → Bool
  | .interrupted r => r == t
  | _ => false

def isRequest (t : Nat) : Event → Bool
  | .requested _ u => u == t
  | _ => false

def pend (q : SState) (t : Nat) : Nat :=
  match q.ts[t]? with
  | some x => b2n x.pending
  | none => 0

theorem pend_set {q : SState} {r t : Nat} {x y : SThr} (hr : q.ts[r]? = some x) : pend (q.set r y) t = if t = r then b2n y.pending else pend q t := by
  simp only [pend, SState.set, set_get hr]
  by_cases e : t = r <;> simp [e]

theorem pend_set_same {q : SState} {r : Nat} {x y : SThr} (t : Nat) (hr : q.ts[r]? = some x) (hp : y.pending = x.pending) : pend (q.set r y) t = pend q t := by
  rw [pend_set hr]
  split
  · rename_i e; subst e; simp [pend, hr, hp]
  · rfl

theorem pend_wake (q : SState) (c t : Nat) : pend { q with ts := q.ts.map (SThr.wake c) } t = pend q t := by
  simp only [pend, List.getElem?_map]
  cases q.ts[t]? with
  | none => rfl
  | some x =>
    simp only [Option.map_some, SThr.wake]
    split <;> (try split) <;> rfl

theorem pend_mx (q : SState) (f : Nat → Option Nat) (t : Nat) : pend { q with mx := f } t = pend q t := rfl

theorem allow_ok {b : Bool} {q q' : SState} (h : allow b q = .ok q') : b = true ∧ q' = q := by
  simp only [allow] at h
  split at h
  · injection h with h; exact ⟨by assumption, h.symm⟩
  · simp at h

theorem next_pend {q q' : SState} {e : Event} (t : Nat) (h : next q e = .ok q') :
    pend q' t + b2n (isInterrupted t e) ≤ pend q t + b2n (isRequest t e) := by
  have same : pend q' t = pend q t → isInterrupted t e = false → pend q' t + b2n (isInterrupted t e) ≤ pend q t + b2n (isRequest t e) := by
    intro h1 h2; rw [h1, h2]; simp [b2n]
  cases e with
  | locked r m => obtain ⟨-, rfl⟩ := allow_ok h; exact same rfl rfl
  | unlocked r m => obtain ⟨-, rfl⟩ := allow_ok h; exact same rfl rfl
  | waitBegan r c m tm =>
    simp only [next] at h
    split at h
    · rename_i x hx
      obtain ⟨-, rfl⟩ := allow_ok h
      exact same (by rw [pend_mx]; exact pend_set_same t hx rfl) rfl
    · simp at h
  | notifiedOne r c w =>
    cases w with
    | none => obtain ⟨-, rfl⟩ := allow_ok h; exact same rfl rfl
    | some v =>
      simp only [next] at h
      split at h
      · rename_i y hy
        obtain ⟨-, rfl⟩ := allow_ok h
        exact same (pend_set_same t hy (by simp only [SThr.wake]; split <;> (try split) <;> rfl)) rfl
      · simp at h
  | notifiedAll r c => simp only [next] at h; injection h with h; subst h; exact same (pend_wake q c t) rfl
  | broadcast c => simp only [next] at h; injection h with h; subst h; exact same (pend_wake q c t) rfl
  | spurious r =>
    simp only [next] at h
    split at h
    · rename_i x hx
      split at h
      · injection h with h; subst h; exact same (pend_set_same t hx rfl) rfl
      · simp at h
    · simp at h
  | timedOut r =>
    simp only [next] at h
    split at h
    · rename_i x hx
      split at h
      · injection h with h; subst h; exact same (pend_set_same t hx rfl) rfl
      · simp at h
    · simp at h
  | relocked r m =>
    simp only [next] at h
    split at h
    · rename_i x hx
      split at h
      · obtain ⟨-, rfl⟩ := allow_ok h
        exact same (by rw [pend_mx]; exact pend_set_same t hx rfl) rfl
      · simp at h
    · simp at h
  | returned r to =>
    simp only [next] at h
    split at h
    · rename_i x hx
      split at h
      · obtain ⟨-, rfl⟩ := allow_ok h
        exact same (pend_set_same t hx rfl) rfl
      · simp at h
    · simp at h
  | interrupted r =>
    simp only [next] at h
    split at h
    · rename_i x hx
      have key : ∀ y : SThr, x.due = true → y.pending = false → pend (q.set r y) t + b2n (isInterrupted t (.interrupted r)) ≤
          pend q t + b2n (isRequest t (.interrupted r)) := by
        intro y hd hy
        simp only [SThr.due, Bool.and_eq_true] at hd
        rw [pend_set hx]
        by_cases e : t = r
        · subst e; simp [hy, pend, hx, hd.2, isInterrupted, isRequest, b2n]
        · have : ¬ r = t := fun h => e h.symm
          simp [e, this, isInterrupted, b2n]
      split at h
      · obtain ⟨hb, rfl⟩ := allow_ok h
        simp only [Bool.and_eq_true] at hb
        exact key _ hb.2 rfl
      · obtain ⟨hb, rfl⟩ := allow_ok h
        exact key _ hb rfl
      · simp at h
    · simp at h
  | requested r u =>
    simp only [next] at h
    split at h
    · rename_i y hy
      injection h with h; subst h
      rw [pend_set hy]
      by_cases e : t = u
      · subst e; simp [isInterrupted, isRequest, b2n]
      · simp [e, isInterrupted, b2n]
    · simp at h
  | passed r =>
    simp only [next] at h
    split at h
    · obtain ⟨-, rfl⟩ := allow_ok h; exact same rfl rfl
    · simp at h
  | requestedIs r u b =>
    simp only [next] at h
    split at h
    · obtain ⟨-, rfl⟩ := allow_ok h; exact same rfl rfl
    · simp at h
  | enabledIs r b =>
    simp only [next] at h
    split at h
    · obtain ⟨-, rfl⟩ := allow_ok h; exact same rfl rfl
    · simp at h
  | disable r =>
    simp only [next] at h
    split at h
    · rename_i x hx
      injection h with h; subst h
      exact same (pend_set_same t hx rfl) rfl
    · simp at h
  | restore r d =>
    simp only [next] at h
    split at h
    · rename_i x hx
      split at h
      · injection h with h; subst h; exact same (pend_set_same t hx rfl) rfl
      · simp at h
    · simp at h
  | scopeEnd r =>
    simp only [next] at h
    split at h
    · rename_i x hx
      split at h
      · injection h with h; subst h; exact same (pend_set_same t hx rfl) rfl
      · injection h with h; subst h; exact same (pend_set_same t hx rfl) rfl
      · simp at h
    · simp at h

theorem pend_history {q q' : SState} {es : List Event} (t : Nat) (h : specState next q es = some q') :
    pend q' t + es.countP (isInterrupted t) ≤ pend q t + es.countP (isRequest t) := by
  induction es generalizing q with
  | nil => simp only [specState, Option.some.injEq] at h; subst h; simp
  | cons e es ih =>
    simp only [specState] at h
    cases hn : next q e with
    | ok q1 =>
      simp only [hn] at h
      have h1 := next_pend t hn
      have h2 := ih h
      have a : (e :: es).countP (isInterrupted t) = es.countP (isInterrupted t) + b2n (isInterrupted t e) := by
        rw [List.countP_cons]; cases isInterrupted t e <;> rfl
      have b : (e :: es).countP (isRequest t) = es.countP (isRequest t) + b2n (isRequest t e) := by
        rw [List.countP_cons]; cases isRequest t e <;> rfl
      omega
    | undefined => simp [hn] at h
    | illegal => simp [hn] at h

/-- **C18.** At most one `thread_interrupted` per request, in every history (several requests before the delivery collapse into one). -/
theorem at_most_one_per_request {n : Nat} {ls : List Label} {s : State} {es : List Event} (t : Nat) (h : run step (init n) ls = some (s, es)) :
    es.countP (isInterrupted t) ≤ es.countP (isRequest t) := by
  have := pend_history t (history_state h)
  have h0 : pend (specInit n) t = 0 := by
    simp only [pend, specInit, List.getElem?_replicate]
    split
    · rename_i x hx
      split at hx
      · injection hx with hx; subst hx; rfl
      · simp at hx
    · rfl
  omega

/-- A thread that consumed a `notify_one` can still leave the wait with `thread_interrupted`; the notification is then lost for the other waiters (thread 1
goes on waiting, nobody inside the library can take a step). This is why code that is woken by `notify_one` has to pass the notification on when it is interrupted. -/
theorem notification_consumed_by_interrupted_thread :
    ∃ ls s es, run step (init 3) ls = some (s, es) ∧ Event.notifiedOne 2 0 (some 0) ∈ es ∧ Event.interrupted 0 ∈ es ∧ WaitsOn 3 es 1 0 0 ∧
      (∀ t, step s (.go t) = none) := by
  refine ⟨[.lock 0 0, .wait 0 0 0 false, .go 0, .go 0, .go 0, .go 0, .lock 1 0, .wait 1 0 0 false, .go 1, .go 1, .go 1, .go 1,
    .notifyOne 2 0 (some 0), .go 0, .go 0, .interrupt 2 0, .go 0, .go 0, .unlock 0 0], _, _, rfl, by decide, by decide,
    ⟨_, _, false, rfl, rfl, rfl⟩, ?_⟩
  intro t
  match t with
  | 0 => rfl
  | 1 => rfl
  | 2 => rfl
  | n + 3 => rfl

end Verif.CondVar
