import Verif.V2Fair.Spec
import Verif.V2Mutex.Props
/-!
# v2 `shared_mutex` and `upgrade_mutex`: waiting writers hold off new readers
-/

set_option linter.unusedSimpArgs false

namespace Verif.V2Fair
open V2Mutex

variable {lim : Nat} {s s' : State} {g : Gate}

def AtGate2 (p : PC) : Prop := p.isG2 = true

structure RG (lim : Nat) (s : State) (g : Gate) : Prop where
  r : Rel lim s g.own
  gate : ∀ t ∈ g.waiting, AtGate2 (s.pc t)

theorem AtGate2.elim {p : PC} (h : AtGate2 p) : ∃ op sv tm sl, p = .gate2 op sv tm sl := by
  cases p with
  | gate2 => exact ⟨_, _, _, _, rfl⟩
  | idle => cases h
  | gate1 => cases h

theorem RG.w (h : RG lim s g) (hw : g.waiting ≠ []) : s.w = true := by
  obtain ⟨t, ht⟩ := List.exists_mem_of_ne_nil _ hw
  obtain ⟨op, sv, tm, sl, hp⟩ := (h.gate t ht).elim
  exact (h.r.g2 t op sv tm sl hp).w

/-- One event. -/
theorem one {e : Event} {P : Gate → Prop} {Q : Own → Prop} (hF : Follows (V2Mutex.next lim) Q g.own [e]) (ha : admits e = true → g.waiting = [])
    (hP : ∀ o, Q o → P { own := o, waiting := after false g.own g.waiting e }) : Follows (next false lim) P g [e] := by
  simp only [Follows, next] at hF ⊢
  cases hn : V2Mutex.next lim g.own e with
  | illegal => simp [hn] at hF
  | undefined => trivial
  | ok o =>
    simp only [hn] at hF ⊢
    have : ¬ (admits e && !g.waiting.isEmpty) = true := by
      simp only [Bool.and_eq_true, Bool.not_eq_true', not_and]
      intro h; simp [ha h]
    rw [if_neg this]
    exact hP o hF

/-- The event that tells of the call of a conversion, and another one. -/
theorem called {e : Event} {P : Gate → Prop} {Q : Own → Prop} {t : Nat} {op : Op} (hF : Follows (V2Mutex.next lim) Q g.own (op.callEvents t ++ [e]))
    (h : Follows (V2Mutex.next lim) Q g.own [e] → Follows (next false lim) P g [e]) : Follows (next false lim) P g (op.callEvents t ++ [e]) := by
  have key : Follows (V2Mutex.next lim) Q g.own ([.called t op] ++ [e]) → Follows (next false lim) P g ([.called t op] ++ [e]) := by
    intro hF
    simp only [List.cons_append, List.nil_append] at hF ⊢
    rw [Follows] at hF ⊢
    simp only [next, V2Mutex.next, pre, admits, Bool.false_and, Bool.false_eq_true, ↓reduceIte, after] at hF ⊢
    by_cases hm : g.own.may t op = true
    · simp only [hm, ↓reduceIte] at hF ⊢; exact h hF
    · simp only [hm]; trivial
  cases op with
  | lock => exact h hF
  | shared => exact h hF
  | upgrade => exact h hF
  | sharedToExclusive | sharedToUpgrade | upgradeToExclusive => exact key hF

theorem ready_admits {op : Op} {t : Nat} (h : RG lim s g) (hr : op.ready s = true) (ha : admits (.granted t op) = true) : g.waiting = [] := by
  by_cases hw : g.waiting = []
  · exact hw
  · have := h.w hw
    cases op <;> simp [admits, Op.ready, State.noWriterNoMaxReaders, State.noWriterNoUpgrader, State.noWriterNoUpgraderNoMaxReaders, this] at ha hr

theorem pass1_gate {t : Nat} {op : Op} {tm : Bool} (h : (s.pass1 t tm op).2 = false) : AtGate2 ((s.pass1 t tm op).1.pc t) := by
  cases op <;> simp only [State.pass1, State.enter2] at h ⊢ <;> first | (split at h <;> simp_all [AtGate2, PC.isG2, upd_apply]; done) | cases h

theorem wake_gate {p : PC} (h : AtGate2 p) : AtGate2 p.wake1 ∧ AtGate2 p.wake2 := by
  obtain ⟨op, sv, tm, sl, rfl⟩ := h.elim
  cases sl <;> exact ⟨rfl, rfl⟩

theorem notifyOne1_gate {pick : Option Nat} {t : Nat} (h : AtGate2 (s.pc t)) (hs : s.notifyOne1 pick = some s') : AtGate2 (s'.pc t) := by
  cases pick with
  | none => simp only [State.notifyOne1] at hs; split at hs <;> cases hs; exact h
  | some u =>
    simp only [State.notifyOne1] at hs
    split at hs
    · cases hs
      simp only [upd_apply]
      split
      · rename_i he; subst he; exact (wake_gate h).1
      · exact h
    · split at hs <;> cases hs; exact h

theorem notifyOne2_gate {pick : Option Nat} {t : Nat} (h : AtGate2 (s.pc t)) (hs : s.notifyOne2 pick = some s') : AtGate2 (s'.pc t) := by
  cases pick with
  | none => simp only [State.notifyOne2] at hs; split at hs <;> cases hs; exact h
  | some u =>
    simp only [State.notifyOne2] at hs
    split at hs
    · cases hs
      simp only [upd_apply]
      split
      · rename_i he; subst he; exact (wake_gate h).2
      · exact h
    · split at hs <;> cases hs; exact h

theorem down_gate {pick : Option Nat} {d : Down} {t : Nat} (h : AtGate2 (s.pc t)) (hs : s.down pick d = some s') : AtGate2 (s'.pc t) := by
  cases d <;> simp only [State.down] at hs
  case unlockShared =>
    split at hs
    · split at hs
      · exact notifyOne1_gate (by exact h) hs
      · cases hs; exact h
    · split at hs
      · exact notifyOne2_gate (by exact h) hs
      · cases hs; exact h
  all_goals cases hs; exact (wake_gate h).1

theorem idle_not_waiting (h : RG lim s g) {t : Nat} (hp : s.pc t = .idle) : t ∉ g.waiting := fun hm => by
  have := h.gate t hm
  rw [hp] at this
  cases this

theorem gate1_not_waiting (h : RG lim s g) {t : Nat} {op : Op} {tm : Bool} {sl : Sleep} (hp : s.pc t = .gate1 op tm sl) : t ∉ g.waiting := fun hm => by
  have := h.gate t hm
  rw [hp] at this
  cases this

/-- A request that finds nobody but readers in its way waits on the second gate. -/
theorem not_ready (h : RG lim s g) {t : Nat} {op : Op} (hr : op.ready s = false) (he : op.exclusive = true) : nextInLine g.own t op = false := by
  cases hn : nextInLine g.own t op with
  | false => rfl
  | true =>
    simp only [nextInLine, Bool.and_eq_true, Bool.or_eq_true, Bool.not_eq_true'] at hn
    obtain ⟨⟨⟨h1, h2⟩, h3⟩, h4⟩ := hn
    have hw : s.w = false := by
      cases hw : s.w with
      | false => rfl
      | true =>
        rcases h.r.around hw with hx | hx
        · rw [h4] at hx; cases hx
        · simp only [Own.writerAround, Bool.or_eq_true, Bool.not_eq_true'] at hx
          rcases hx with hx | hx
          · rw [Option.isNone_iff_eq_none] at h1; rw [h1] at hx; cases hx
          · rw [h2] at hx; cases hx
    have hu := (h.r.fr hw).u
    cases op <;> simp only [Op.exclusive, Bool.false_eq_true] at he <;> simp only [Op.ready, State.noWriterNoUpgrader, hw, Bool.not_false, Bool.true_and, Bool.not_eq_false', reduceCtorEq] at hr
    all_goals
      simp only [reduceCtorEq, beq_iff_eq, false_and, or_false, Option.isNone_iff_eq_none] at h3
      rw [hr, h3] at hu
      cases hu

theorem mem_filter {w : List Nat} {t x : Nat} (h : x ∈ w.filter (· != t)) : x ∈ w ∧ x ≠ t := by
  simpa using h

theorem sim {l : Label} {es : List Event} (h : RG lim s g) (hs : step s l = some (s', es)) : Follows (next false lim) (RG lim s') g es := by
  have hF := V2Mutex.sim h.r hs
  simp only [step] at hs
  split at hs
  · cases hs
  cases l with
  | call t op tm =>
    simp only at hs
    split at hs
    rotate_left
    · cases hs
    rename_i hc
    have hnw := idle_not_waiting h hc.2.1
    split at hs
    · split at hs
      · rename_i hr
        cases hs
        cases hd : (s.pass1 t tm op).2 with
        | true =>
          simp only [hd, ↓reduceIte] at hF ⊢
          refine called hF (fun hF => one hF (ready_admits h hr) (fun o hq => ⟨hq, fun x hx => ?_⟩))
          obtain ⟨hx, hne⟩ := mem_filter (by simpa only [after] using hx)
          rw [pass1_other _ _ _ _ _ (Ne.symm hne)]
          exact h.gate x hx
        | false =>
          simp only [hd, Bool.false_eq_true, ↓reduceIte] at hF ⊢
          refine called hF (fun hF => one hF (by simp [admits]) (fun o hq => ⟨hq, fun x hx => ?_⟩))
          by_cases hxt : x = t
          · subst hxt; exact pass1_gate hd
          · rw [pass1_other _ _ _ _ _ (Ne.symm hxt)]
            refine h.gate x ?_
            simp only [after] at hx
            split at hx
            · simpa [hxt] using hx
            · exact hx
      · rename_i hr
        cases hs
        refine called hF (fun hF => one hF (by simp [admits]) (fun o hq => ⟨hq, fun x hx => ?_⟩))
        have hx : x ∈ g.waiting := by
          simp only [after, Bool.false_or] at hx
          split at hx
          · rename_i hb
            simp only [Bool.and_eq_true] at hb
            rw [not_ready h (by simpa using hr) hb.1] at hb
            cases hb.2
          · exact hx
        have hxt : x ≠ t := fun e => hnw (e ▸ hx)
        simp only [upd_apply, hxt, ↓reduceIte]
        exact h.gate x hx
    · cases hs
      exact called hF (fun hF => one hF (by simp [admits]) (fun o hq => ⟨hq, fun x hx => h.gate x hx⟩))
  | tryCall t op =>
    simp only at hs
    split at hs
    rotate_left
    · cases hs
    split at hs
    · split at hs <;> cases hs
      · rename_i hr
        refine one hF (fun ha => ?_) (fun o hq => ⟨hq, fun x hx => by rw [grant_pc]; exact h.gate x hx⟩)
        by_cases hw : g.waiting = []
        · exact hw
        · have := h.w hw
          cases op <;> simp [admits, TryOp.ready, State.noWriterNoMaxReaders, State.noWriterNoUpgrader, State.noWriterNoUpgraderNoMaxReaders, this] at ha hr
      · exact one hF (by cases op <;> simp [admits]) (fun o hq => ⟨hq, fun x hx => h.gate x hx⟩)
    · cases hs
      exact one hF (by simp [admits]) (fun o hq => ⟨hq, fun x hx => h.gate x hx⟩)
  | down t d pick =>
    simp only at hs
    split at hs
    rotate_left
    · cases hs
    split at hs
    · split at hs
      · rename_i s1 hd
        cases hs
        refine one hF (by simp [admits]) (fun o hq => ⟨hq, fun x hx => down_gate (h.gate x ?_) hd⟩)
        cases d <;> simpa only [after, Bool.false_eq_true, ↓reduceIte] using hx
      · cases hs
    · cases hs
      exact one hF (by simp [admits]) (fun o hq => ⟨hq, fun x hx => h.gate x hx⟩)
  | spurious t =>
    simp only at hs
    split at hs <;> cases hs
    all_goals
      refine ⟨hF, fun x hx => ?_⟩
      have := h.gate x hx
      simp only [upd_apply]
      split
      · rename_i hp he; subst he; rw [hp] at this; first | cases this; done | rfl
      · exact this
  | timeout t =>
    simp only at hs
    split at hs <;> cases hs
    all_goals
      refine ⟨hF, fun x hx => ?_⟩
      have := h.gate x hx
      simp only [upd_apply]
      split
      · rename_i hp he; subst he; rw [hp] at this; first | cases this; done | rfl
      · exact this
  | interrupt t =>
    simp only at hs
    split at hs <;> cases hs
    all_goals
      refine one hF (by simp [admits]) (fun o hq => ⟨hq, fun x hx => ?_⟩)
      obtain ⟨hx, hne⟩ := mem_filter (by simpa only [after] using hx)
      simp only [upd_apply, hne, ↓reduceIte]
      exact h.gate x hx
  | resume t =>
    simp only at hs
    split at hs
    · rename_i op tm sl hp
      have hnw := gate1_not_waiting h hp
      simp only [State.resume1] at hs
      split at hs
      · cases hs
      split at hs
      · rename_i hr
        cases hs
        cases hd : (s.pass1 t tm op).2 with
        | true =>
          simp only [hd, ↓reduceIte] at hF ⊢
          refine one hF (ready_admits h hr) (fun o hq => ⟨hq, fun x hx => ?_⟩)
          obtain ⟨hx, hne⟩ := mem_filter (by simpa only [after] using hx)
          rw [pass1_other _ _ _ _ _ (Ne.symm hne)]
          exact h.gate x hx
        | false =>
          simp only [hd, Bool.false_eq_true, ↓reduceIte] at hF ⊢
          refine ⟨hF, fun x hx => ?_⟩
          have hxt : x ≠ t := fun e => hnw (e ▸ hx)
          rw [pass1_other _ _ _ _ _ (Ne.symm hxt)]
          exact h.gate x hx
      split at hs <;> cases hs
      · refine one hF (by simp [admits]) (fun o hq => ⟨hq, fun x hx => ?_⟩)
        obtain ⟨hx, hne⟩ := mem_filter (by simpa only [after] using hx)
        simp only [upd_apply, hne, ↓reduceIte]
        exact h.gate x hx
      · refine ⟨hF, fun x hx => ?_⟩
        have hxt : x ≠ t := fun e => hnw (e ▸ hx)
        simp only [upd_apply, hxt, ↓reduceIte]
        exact h.gate x hx
    · rename_i op sv tm sl hp
      have hg := h.r.g2 t op sv tm sl hp
      have hna : admits (.granted t op) = false := by
        have := hg.at2
        cases op <;> first | rfl | exact absurd this id
      simp only [State.resume2] at hs
      split at hs
      · cases hs
      split at hs
      · cases hs
        refine one hF (by simp [hna]) (fun o hq => ⟨hq, fun x hx => ?_⟩)
        obtain ⟨hx, hne⟩ := mem_filter (by simpa only [after] using hx)
        simp only [upd_apply, hne, ↓reduceIte]
        exact h.gate x hx
      split at hs <;> cases hs
      · refine one hF (by simp [admits]) (fun o hq => ⟨hq, fun x hx => ?_⟩)
        obtain ⟨hx, hne⟩ := mem_filter (by simpa only [after] using hx)
        simp only [fail2_pc, upd_apply, hne, ↓reduceIte]
        exact h.gate x hx
      · refine ⟨hF, fun x hx => ?_⟩
        simp only [upd_apply]
        split
        · rfl
        · exact h.gate x hx
    · cases hs

/-- **C67**, for the v2 mutexes. A request for exclusive ownership that has only readers in its way holds off everybody who asks for shared or upgrade ownership, until it is granted, times out or is
interrupted.

Partial: a request that comes while there is an upgrade owner, a writer or another waiting writer does not, see `passed_behind_upgrader`, `starved_by_timeout`. -/
theorem conforms_partial (threads : Nat) {limit : Nat} (hl : 0 < limit) (ls : List Label) (s : State) (es : List Event) (h : run step (init threads limit) ls = some (s, es)) :
    Accepts (next false limit) {} es :=
  simulation (RG limit) (fun _ _ _ _ _ hR hs => sim hR hs) ⟨rel_init threads hl, fun _ h => by cases h⟩ h

/-! ## The theorem speaks about something -/

/-- Two readers; a writer comes and waits; a third reader, although the mutex is shared, is held off, and so is an attempt; the readers leave; the writer gets in, and after it the reader. -/
def prog : List Label :=
  [.call 0 .shared false, .call 1 .shared false, .call 2 .lock false, .call 3 .shared false, .tryCall 4 .shared, .down 0 .unlockShared none, .tryCall 4 .upgrade, .down 1 .unlockShared (some 2),
   .tryCall 4 .shared, .resume 2, .down 2 .unlock none, .resume 3, .down 3 .unlockShared none]

def events : List Event :=
  [.granted 0 .shared, .granted 1 .shared, .blocked 2 .lock, .blocked 3 .shared, .tried 4 .shared false, .down 0 .unlockShared, .tried 4 .upgrade false, .down 1 .unlockShared, .tried 4 .shared false,
   .granted 2 .lock, .down 2 .unlock, .granted 3 .shared, .down 3 .unlockShared]

example : (run step (init 5 9) prog).map (·.2) = some events := by decide +kernel
example : ClientOk (next true 9) {} events := by decide +kernel
example : (specState (next false 9) {} (events.take 9)).map (·.waiting) = some [2] := by decide +kernel

/-! ## Writers can be starved -/

/-- Threads 0 and 3 take turns as readers, so that the mutex is never free. -/
def turns : List Label := [.call 3 .shared false, .down 0 .unlockShared none, .call 0 .shared false, .down 3 .unlockShared none]
def turnsEvents : List Event := [.granted 3 .shared, .down 0 .unlockShared, .granted 0 .shared, .down 3 .unlockShared]

/-- There are readers, or an upgrade owner, but no writer has entered, and there is room for one more reader. -/
structure Open (s : State) : Prop where
  w : s.w = false
  n : 0 < s.n
  lim : s.n + 1 < s.limit
  dead : s.dead = false
  pc0 : s.pc 0 = .idle
  pc3 : s.pc 3 = .idle
  th : 3 < s.threads

theorem turns_again {s : State} (h : Open s) : run step s turns = some (s, turnsEvents) := by
  obtain ⟨threads, limit, w, u, n, pc, dead⟩ := s
  obtain ⟨h1, h2, h3, h4, h5, h6, h7⟩ := h
  simp only at h1 h2 h3 h4 h5 h6 h7
  subst h1 h4
  have e0 : upd pc 0 .idle = pc := by funext x; simp only [upd_apply]; split <;> simp_all
  have e3 : upd pc 3 .idle = pc := by funext x; simp only [upd_apply]; split <;> simp_all
  have a1 : 0 < threads := by omega
  have a2 : n ≠ limit := by omega
  have a3 : n + 1 ≠ limit := by omega
  have a4 : n ≠ limit - 1 := by omega
  simp [run, turns, turnsEvents, step, h5, h6, h7, a1, a2, a3, a4, Op.hasForm, Op.asserts, Op.ready, State.noWriterNoMaxReaders, State.pass1, Op.callEvents, Down.asserts, State.down, e0, e3]

theorem turns_forever {s : State} (h : Open s) (n : Nat) : run step s (List.replicate n turns).flatten = some (s, (List.replicate n turnsEvents).flatten) := by
  induction n with
  | zero => rfl
  | succ n ih => simp only [List.replicate_succ, List.flatten_cons]; exact run_append (turns_again h) ih

def openB (s : State) : Bool :=
  !s.w && decide (0 < s.n) && decide (s.n + 1 < s.limit) && !s.dead && s.pc 0 == .idle && s.pc 3 == .idle && decide (3 < s.threads) && s.pc 1 == .gate1 .lock false .asleep

theorem starved_of {ls : List Label} {es : List Event} (h : (run step (init 4 9) ls).map (fun r => (openB r.1, r.2)) = some (true, es)) (hb : ¬ Accepts (next true 9) {} (es ++ turnsEvents)) (n : Nat) :
    ∃ ls s, run step (init 4 9) ls = some (s, es ++ (List.replicate n turnsEvents).flatten) ∧ s.pc 1 = .gate1 .lock false .asleep ∧
      (0 < n → ¬ Accepts (next true 9) {} (es ++ (List.replicate n turnsEvents).flatten)) := by
  cases hr : run step (init 4 9) ls with
  | none => simp [hr] at h
  | some r =>
    obtain ⟨m, es'⟩ := r
    simp only [hr, Option.map_some, Option.some.injEq, Prod.mk.injEq] at h
    obtain ⟨ho, rfl⟩ := h
    simp only [openB, Bool.and_eq_true, Bool.not_eq_true', decide_eq_true_eq, beq_iff_eq] at ho
    obtain ⟨⟨⟨⟨⟨⟨⟨h1, h2⟩, h3⟩, h4⟩, h5⟩, h6⟩, h7⟩, h8⟩ := ho
    refine ⟨_, m, run_append hr (turns_forever ⟨h1, h2, h3, h4, h5, h6, h7⟩ n), h8, fun hn ha => ?_⟩
    obtain ⟨k, rfl⟩ : ∃ k, n = k + 1 := ⟨n - 1, by omega⟩
    rw [List.replicate_succ, List.flatten_cons, ← List.append_assoc] at ha
    exact hb ha.prefix

/-- Thread 1 waits in `lock()`. Thread 2, in a timed `lock` and waiting for the reader to leave, gives up; that lets readers in although thread 1 still waits, and nobody wakes it. From then on readers come and
go without end and thread 1 never gets the mutex: for every `n` there is such a schedule with `2 n` new readers. -/
theorem starved_by_timeout (n : Nat) : ∃ ls s, run step (init 4 9) ls =
      some (s, [.granted 0 .shared, .blocked 2 .lock, .blocked 1 .lock, .timedOut 2 .lock] ++ (List.replicate n turnsEvents).flatten) ∧ s.pc 1 = .gate1 .lock false .asleep ∧
    (0 < n → ¬ Accepts (next true 9) {} ([.granted 0 .shared, .blocked 2 .lock, .blocked 1 .lock, .timedOut 2 .lock] ++ (List.replicate n turnsEvents).flatten)) :=
  starved_of (ls := [.call 0 .shared false, .call 2 .lock true, .call 1 .lock false, .timeout 2, .resume 2]) (by decide +kernel) (by decide +kernel) n

/-- Thread 1 waits in `lock()` while there is an upgrade owner: new readers are let in all the time. -/
theorem passed_behind_upgrader (n : Nat) : ∃ ls s, run step (init 4 9) ls =
      some (s, [.granted 0 .shared, .granted 2 .upgrade, .blocked 1 .lock] ++ (List.replicate n turnsEvents).flatten) ∧ s.pc 1 = .gate1 .lock false .asleep ∧
    (0 < n → ¬ Accepts (next true 9) {} ([.granted 0 .shared, .granted 2 .upgrade, .blocked 1 .lock] ++ (List.replicate n turnsEvents).flatten)) :=
  starved_of (ls := [.call 0 .shared false, .call 2 .upgrade false, .call 1 .lock false]) (by decide +kernel) (by decide +kernel) n

/-! ## The specification rejects -/

example : ¬ Accepts (next false 9) {} [.granted 0 .shared, .blocked 1 .lock, .granted 2 .shared] := by decide +kernel
example : ¬ Accepts (next false 9) {} [.granted 0 .shared, .blocked 1 .lock, .tried 2 .upgrade true] := by decide +kernel
example : ¬ Accepts (next false 9) {} [.granted 0 .upgrade, .granted 1 .shared, .called 0 .upgradeToExclusive, .blocked 0 .upgradeToExclusive, .granted 2 .shared] := by decide +kernel
example : ¬ Accepts (next false 9) {} [.granted 0 .shared, .granted 3 .shared, .blocked 1 .lock, .down 0 .unlockShared, .granted 2 .shared] := by decide +kernel
example : ¬ Accepts (next false 9) {} [.granted 0 .shared, .blocked 1 .lock, .down 0 .unlockShared, .granted 2 .shared] := by decide +kernel
example : Accepts (next true 9) {} [.granted 0 .shared, .blocked 1 .lock, .down 0 .unlockShared, .granted 2 .shared] := by decide +kernel
example : Accepts (next false 9) {} [.granted 0 .shared, .blocked 1 .lock, .timedOut 1 .lock, .granted 2 .shared] := by decide +kernel

end Verif.V2Fair
