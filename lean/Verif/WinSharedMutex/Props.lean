import Verif.WinSharedMutex.Live
import Verif.WinSharedMutex.Returns
/-! # C12: the Windows `shared_mutex` -/

set_option linter.unusedSimpArgs false

namespace Verif.WinSharedMutex

/-- **C12.** Whatever the threads do and however their loads and compare-and-swaps are interleaved, what they observe is what the specification allows: nobody is granted ownership that does not go with the owners there are,
nobody is refused, and nobody gets an error, without the reason the specification names. -/
theorem history_conforms {threads : Nat} {ls : List Label} {s : State} {es : List Event} (h : run step (init threads) ls = some (s, es)) : Accepts next free es := sim h

/-- **C12**, exclusion. A writer excludes everybody. -/
theorem exclusion {threads : Nat} {ls : List Label} {s : State} {es : List Event} {o : Own} (h : run step (init threads) ls = some (s, es)) (ho : specState next free es = some o) : o.Exclusive :=
  (live h ho).1.wf.writer

/-- **C12**, two grants. When exclusive ownership is granted, nobody else owns the mutex; when shared ownership is granted, there is no writer and no writer is waiting with
precedence; when upgrade ownership is granted, there is also no upgrade owner. -/
theorem grants {threads : Nat} {ls : List Label} {s : State} {h1 h2 : List Event} {t : Nat} {r : Req} {o : Own} (h : run step (init threads) ls = some (s, h1 ++ .granted t r :: h2)) (ho : specState next free h1 = some o) :
    match r with
    | .lock => o.writer = none ∧ o.upgrader = none ∧ o.readers = []
    | .shared => o.writer = none ∧ o.asked = false
    | .upgrade => o.writer = none ∧ o.upgrader = none ∧ o.asked = false
    | .upgradeToExclusive => o.upgrader = some t → o.writer = none ∧ o.readers = [] := by
  have hn := Accepts.next_of_specState (history_conforms h) ho
  obtain ⟨rs, ug, wr, cv, sw, xw, as⟩ := o
  cases r <;> simp only [next, must, pre] at hn ⊢
  · split at hn
    · rename_i hb; cases ug <;> cases wr <;> simp_all [Own.owned]
    · exact absurd rfl hn
  · split at hn
    · rename_i hb; cases wr <;> simp_all [Own.writing]
    · exact absurd rfl hn
  · split at hn
    · rename_i hb; cases ug <;> cases wr <;> simp_all [Own.writing]
    · exact absurd rfl hn
  · intro he
    subst he
    simp only [beq_self_eq_true, if_true] at hn
    split at hn
    · rename_i hb; cases wr <;> simp_all
    · exact absurd rfl hn

/-- **C12**, no corruption. The fields of the word are exactly what they stand for, however large the counts get: a counter never runs into its neighbours, and no update is lost. -/
theorem fields_exact {threads : Nat} {ls : List Label} {s : State} {es : List Event} {o : Own} (h : run step (init threads) ls = some (s, es)) (ho : specState next free es = some o) :
    s.word.sc = o.owners ∧ s.word.sw = o.sharedWaits ∧ s.word.xw = o.exclWaits ∧ s.word.x = o.writing ∧ s.word.xb = o.asked ∧ s.word.sc < 2048 ∧ s.word.sw < 2048 ∧ s.word.xw < 128 := by
  obtain ⟨hr, -⟩ := live h ho
  have hw := hr.word
  obtain ⟨h1, h2, h3, -, -, -⟩ := hr.wf
  refine ⟨by rw [hw]; rfl, by rw [hw]; rfl, by rw [hw]; rfl, by rw [hw]; rfl, by rw [hw]; rfl, by rw [hw]; exact h1, by rw [hw]; exact h2, by rw [hw]; exact h3⟩

/-- **C12**, errors. An error is the answer only if the counter that the request needs is at its limit. -/
theorem error_exhausted {threads : Nat} {ls : List Label} {s : State} {h1 h2 : List Event} {t : Nat} {r : Req} {o : Own} (h : run step (init threads) ls = some (s, h1 ++ .error t r :: h2)) (ho : specState next free h1 = some o) :
    match r with
    | .lock => o.exclWaits = 127
    | .upgradeToExclusive => False
    | _ => o.owners = 2047 ∨ o.sharedWaits = 2047 := by
  have hn := Accepts.next_of_specState (history_conforms h) ho
  cases r <;> simp only [next, must] at hn ⊢
  · split at hn
    · rename_i hb; simpa using hb
    · exact absurd rfl hn
  · split at hn
    · rename_i hb; simpa using hb
    · exact absurd rfl hn
  · split at hn
    · rename_i hb; simpa using hb
    · exact absurd rfl hn
  · exact absurd rfl hn

/-- A thread has gone to sleep and is still asleep. -/
def State.asleep (s : State) (t : Nat) : Prop := (∃ c old, s.pc t = .waiting c old) ∨ s.pc t = .waitUp

/-- Nobody is in the middle of an operation. -/
def State.settled (s : State) : Prop := ∀ t, s.pc t = .idle ∨ s.asleep t

/-- **No lost wake-up when the mutex is free.** If nobody owns the mutex and nobody is in the middle of an operation, then each sleeper can wake up. So, as soon as the owners have left, one of them gets it. -/
theorem free_wakes {threads : Nat} {ls : List Label} {s : State} {es : List Event} {o : Own} (h : run step (init threads) ls = some (s, es)) (ho : specState next free es = some o) (hf : o.owned = false)
    (hq : s.settled) {t : Nat} (ht : s.asleep t) : (step s (.wake t)).isSome := by
  obtain ⟨hr, hl⟩ := live h ho
  have hw : s.word.free = true := by
    rw [hr.word]
    obtain ⟨rs, ug, wr, cv, sw, xw, as⟩ := o
    have := hr.wf.conv
    cases ug <;> cases wr <;> cases rs <;> cases cv <;> simp_all [Own.owned, Word.free, Own.word, Own.owners, Own.writing]
  have hz : ∀ x, relEx (s.pc x) = 0 ∧ relUn (s.pc x) = 0 ∧ trying (s.pc x) = false := by
    intro x
    rcases hq x with h | ⟨c, old, h⟩ | h <;> rw [h] <;> simp [relEx, relUn, trying]
  have hE : total relEx s.pc s.threads = 0 := total_zero _ _ fun x => (hz x).1
  have hU : total relUn s.pc s.threads = 0 := total_zero _ _ fun x => (hz x).2.1
  have l1 := hl.l1
  have l3 := hl.l3 hw
  have l4 := hl.l4 hw
  have hlt : t < s.threads := by
    by_cases e : t < s.threads
    · exact e
    · have := hl.bound t (by omega)
      rcases ht with ⟨c, old, h⟩ | h <;> rw [this] at h <;> cases h
  have hS := le_total slpS s.pc hlt
  have hX := le_total slpX s.pc hlt
  rcases ht with ⟨c, old, hp⟩ | hp
  · rw [hp] at hS hX
    by_cases hc : ∃ b, c = .lock b
    · obtain ⟨b, rfl⟩ := hc
      simp only [slpX] at hX
      have : 0 < s.ex := by
        rcases l4 (by omega) with h4 | ⟨x, hx⟩
        · omega
        · rw [(hz x).2.2] at hx; cases hx
      have : 0 < s.ex ∧ 0 < s.un := by omega
      simp only [step, hp, this, and_self, if_true, Option.isSome_some]
    · have hs1 : slpS (.waiting c old) = 1 := by cases c <;> simp_all [slpS]
      have : 0 < s.un := by omega
      simp only [step, hp]
      split
      · rename_i b; exact absurd ⟨b, rfl⟩ hc
      · simp [this]
  · have := (hr.pcs.up t).1 hp
    simp only [Own.conv] at this
    split at this
    · simp only [Own.owned] at hf; rw [this] at hf; simp at hf
    · cases this

/-- **No lost wake-up for a conversion.** If the last reader has left, the upgrade owner that waits to become writer can go on. -/
theorem conversion_wakes {threads : Nat} {ls : List Label} {s : State} {es : List Event} {o : Own} {t : Nat} (h : run step (init threads) ls = some (s, es)) (ho : specState next free es = some o) (hc : o.converting = true)
    (hu : o.upgrader = some t) (hf : o.readers = []) (hq : s.settled) : s.asleep t ∧ (step s (.wake t)).isSome := by
  obtain ⟨hr, -⟩ := live h ho
  have hp : s.pc t = .waitUp := (hr.pcs.up t).2 (by simp [Own.conv, hc, hu])
  refine ⟨.inr hp, ?_⟩
  have hup : 0 < s.up := by
    rcases hr.pcs.tok (by simp [Own.handed, hc, hf]) with h | ⟨-, x, hx, -⟩
    · omega
    · rcases hq x with h | ⟨c, old, h⟩ | h <;> rw [h] at hx <;> simp [relUp] at hx
  simp [step, hp, hup]

/-! ## What it does not do -/

/-- **Lost wake-up.** Thread 0 reads. Thread 1 waits for exclusive ownership with a deadline, threads 2 and 3 then want to read and go to sleep. Thread 1 gives up and wakes only one of them: the other sleeps on although only readers own the mutex. -/
theorem lost_wakeup : ∃ s es o, run step (init 4) [.call 0 (.shared false), .load 0, .cas 0, .call 1 (.lock true), .load 1, .cas 1, .call 2 (.shared false), .load 2, .cas 2, .call 3 (.shared false), .load 3, .cas 3,
      .timeout 1, .cas 1, .cas 1, .release 1, .release 1, .wake 2, .load 2, .cas 2] = some (s, es) ∧ specState next free es = some o ∧
    o.readers = [2, 0] ∧ o.writer = none ∧ o.upgrader = none ∧ o.asked = false ∧ (∃ old, s.pc 3 = .waiting (.shared false) old) ∧ step s (.wake 3) = none ∧ s.pc 0 = .idle ∧ s.pc 1 = .idle ∧ s.pc 2 = .idle :=
  ⟨_, _, _, rfl, rfl, by decide, by decide, by decide, by decide, ⟨_, rfl⟩, by rfl, by decide, by decide, by decide⟩

/-- **Lost wake-up.** Thread 0 is writer, thread 1 waits for upgrade ownership and thread 2 to read. Thread 0 goes over to upgrade ownership and wakes both. Thread 1 takes both tokens, one after the other; thread 2 sleeps on although it could read. -/
theorem stolen_wakeup : ∃ s es o, run step (init 3) [.call 0 (.lock false), .load 0, .cas 0, .call 1 .upgrade, .load 1, .cas 1, .call 2 (.shared false), .load 2, .cas 2, .call 0 .exclusiveToUpgrade, .load 0, .cas 0, .release 0, .release 0,
      .wake 1, .load 1, .cas 1, .wake 1, .load 1, .cas 1] = some (s, es) ∧ specState next free es = some o ∧
    o.readers = [] ∧ o.writer = none ∧ o.upgrader = some 0 ∧ o.asked = false ∧ (∃ old, s.pc 2 = .waiting (.shared false) old) ∧ step s (.wake 2) = none ∧ s.pc 0 = .idle ∧ (∃ old, s.pc 1 = .waiting .upgrade old) :=
  ⟨_, _, _, rfl, rfl, by decide, by decide, by decide, by decide, ⟨_, rfl⟩, by rfl, by decide, ⟨_, rfl⟩⟩

/-- Thread 0 reads, thread 1 waits for exclusive ownership with a deadline, thread 2 waits to read, and `n` waits are on the books. -/
structure Round (n : Nat) (s : State) : Prop where
  threads : s.threads = 3
  word : s.word = ⟨1, n, false, false, 1, true⟩
  un : s.un = 0
  p1 : ∃ m, s.pc 1 = .waiting (.lock true) ⟨1, m, false, false, 0, false⟩
  p2 : ∃ m, s.pc 2 = .waiting (.shared false) m

theorem round_zero : ∃ s es, run step (init 3) [.call 0 (.shared false), .load 0, .cas 0, .call 1 (.lock true), .load 1, .cas 1, .call 2 (.shared false), .load 2, .cas 2] = some (s, es) ∧ Round 1 s :=
  ⟨_, _, rfl, rfl, rfl, rfl, ⟨_, rfl⟩, ⟨_, rfl⟩⟩

/-- Thread 1 gives up and tries again; thread 2 wakes up in vain. -/
def again : List Label := [.timeout 1, .cas 1, .cas 1, .release 1, .release 1, .call 1 (.lock true), .load 1, .cas 1, .wake 2, .load 2]

theorem round_again {n : Nat} {s : State} (h : Round n s) (hn : n < 2047) : ∃ s' es, run step s (again ++ [.cas 2]) = some (s', es) ∧ Round (n + 1) s' := by
  obtain ⟨h1, h2, h3, ⟨m, h4⟩, ⟨m', h5⟩⟩ := h
  have e1 : (n + 1) % 2048 ≠ 0 := by omega
  have e2 : (n + 1) % 2048 = n + 1 := by omega
  have : ∃ r, run step s (again ++ [.cas 2]) = some r ∧ Round (n + 1) r.1 := by
    simp [again, run, step, h1, h2, h3, h4, h5, State.decide, State.commit, plan, mustNotify, upd_apply, Word.decXW, Word.incXW, Word.incSW, Word.closed, Code.callable, e2]
    constructor <;> simp [upd_apply]
  obtain ⟨⟨s', es⟩, h, hr⟩ := this
  exact ⟨s', es, h, hr⟩

theorem rounds (n : Nat) (hn : n < 2047) : ∃ ls s es, run step (init 3) ls = some (s, es) ∧ Round (n + 1) s := by
  induction n with
  | zero => obtain ⟨s, es, h, hr⟩ := round_zero; exact ⟨_, s, es, h, hr⟩
  | succ n ih =>
    obtain ⟨ls, s, es, h, hr⟩ := ih (by omega)
    obtain ⟨s', es', h', hr'⟩ := round_again hr (by omega)
    exact ⟨_, s', _, run_append h h', hr'⟩

/-- **Three threads exhaust a counter.** A wait that was begun in vain stays on the books. With one reader, one thread that waits for exclusive ownership with a deadline again and again, and one thread that waits to read, `lock_shared` ends in an error. -/
theorem error_with_three_threads : ∃ ls s es, run step (init 3) ls = some (s, es ++ [.error 2 .shared]) := by
  obtain ⟨ls, s, es, h, ⟨h1, h2, h3, ⟨m, h4⟩, ⟨m', h5⟩⟩⟩ := rounds 2046 (by omega)
  have : ∃ r, run step s again = some r ∧ r.2 = [.timedOut 1 .lock, .blocked 1 .lock] ++ [.error 2 .shared] := by
    simp [again, run, step, h1, h2, h3, h4, h5, State.decide, State.commit, plan, mustNotify, upd_apply, Word.decXW, Word.incXW, Word.incSW, Word.closed, Code.callable]
  obtain ⟨⟨s', es'⟩, h', rfl⟩ := this
  exact ⟨_, s', es ++ [.timedOut 1 .lock, .blocked 1 .lock], by rw [run_append h h']; simp⟩

/-! ## The hypotheses can be met -/

/-- Thread 0 reads, thread 1 is upgrade owner and waits to become writer, thread 2 waits for exclusive ownership, thread 3 to read. -/
def busy : List Label := [.call 0 (.shared false), .load 0, .cas 0, .call 1 .upgrade, .load 1, .cas 1, .call 2 (.lock true), .load 2, .cas 2, .call 1 .upgradeToExclusive, .load 1, .cas 1, .call 3 (.shared true), .load 3, .cas 3]

example : ∃ s es o, run step (init 4) busy = some (s, es) ∧ specState next free es = some o ∧ o.readers = [0] ∧ o.upgrader = some 1 ∧ o.converting = true ∧ o.exclWaits = 1 ∧ o.sharedWaits = 1 :=
  ⟨_, _, _, rfl, rfl, by decide, by decide, by decide, by decide, by decide⟩

/-- The reader leaves: the hypotheses of `conversion_wakes`. -/
example : ∃ s es o, run step (init 4) (busy ++ [.call 0 .unlockShared, .load 0, .cas 0, .release 0, .release 0]) = some (s, es) ∧ specState next free es = some o ∧ o.converting = true ∧ o.upgrader = some 1 ∧ o.readers = [] ∧ s.settled := by
  refine ⟨_, _, _, rfl, rfl, by decide, by decide, by decide, ?_⟩
  intro t
  match t with
  | 0 => exact .inl rfl
  | 1 => exact .inr (.inr rfl)
  | 2 => exact .inr (.inl ⟨_, _, rfl⟩)
  | 3 => exact .inr (.inl ⟨_, _, rfl⟩)
  | t + 4 => exact .inl rfl

/-- The new writer is granted ownership and unlocks: the hypotheses of `free_wakes`, with two sleepers. -/
example : ∃ s es o, run step (init 4) (busy ++ [.call 0 .unlockShared, .load 0, .cas 0, .release 0, .release 0, .wake 1, .call 1 .unlock, .load 1, .cas 1, .release 1, .release 1, .release 1]) = some (s, es) ∧ specState next free es = some o ∧
    o.owned = false ∧ s.settled ∧ s.asleep 2 ∧ s.asleep 3 ∧ .granted 1 .upgradeToExclusive ∈ es := by
  refine ⟨_, _, _, rfl, rfl, by decide, ?_, .inl ⟨_, _, rfl⟩, .inl ⟨_, _, rfl⟩, by decide⟩
  intro t
  match t with
  | 0 => exact .inl rfl
  | 1 => exact .inl rfl
  | 2 => exact .inr (.inl ⟨_, _, rfl⟩)
  | 3 => exact .inr (.inl ⟨_, _, rfl⟩)
  | t + 4 => exact .inl rfl

/-- A compare-and-swap that fails because another thread was quicker, and is repeated. -/
example : ∃ s es o, run step (init 2) [.call 0 (.lock false), .load 0, .call 1 (.shared false), .load 1, .cas 1, .cas 0, .cas 0] = some (s, es) ∧ specState next free es = some o ∧ es = [.granted 1 .shared, .blocked 0 .lock] ∧ o.readers = [1] :=
  ⟨_, _, _, rfl, rfl, by decide, by decide⟩

end Verif.WinSharedMutex
