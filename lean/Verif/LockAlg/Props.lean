import Verif.LockAlg.Lemmas
/-! # Properties C13 and C14: `boost::lock` and `boost::try_lock` -/

set_option linter.unusedSimpArgs false

namespace Verif.LockAlg

theorem good_trace {α : Type} {h ms : List Nat} {done : α → Prop} {o : Out α} (g : Good h ms done o) : ∃ held, Leaves o.trace held := by
  cases o with
  | returned tr a =>
    by_cases hd : done a
    · obtain ⟨h', h1, _⟩ := g.ret _ _ rfl hd; exact ⟨h', h1⟩
    · exact ⟨h, g.fail _ _ rfl hd⟩
  | threw tr => exact ⟨h, g.thr _ rfl⟩
  | running tr => exact g.run _ rfl
  | spins tr => exact absurd rfl (g.spin tr)

theorem leaves_prefix {pre post : Trace} {m : Nat} {ok : Bool} {h : List Nat} (hl : Leaves (pre ++ .lock m ok :: post) h) : Leaves pre [] := by
  simp only [Leaves] at *
  rw [specState_append] at hl
  cases hp : specState specNext [] pre with
  | none => rw [hp] at hl; cases hl
  | some h' =>
    rw [hp] at hl
    simp only [Option.bind_some, specState, specNext] at hl
    by_cases h0 : h' = []
    · rw [h0]
    · simp [h0] at hl

theorem lockN_good (env : Env) {ms : List Nat} (ha : Arity ms) (fuel : Nat) : Good [] ms (fun _ => True) (lockN env ms fuel) :=
  lockLoop_good env ms ha fuel [] rfl 0 (by have := ha.1; omega)

theorem lockRange_good (env : Env) (ms : List Nat) (fuel : Nat) : Good [] ms (fun _ => True) (lockRange env ms fuel) := by
  cases ms with
  | nil => exact ⟨by simp only [lockRange, onRange]; rintro tr a ⟨⟩ _; exact ⟨[], rfl, by simp⟩, by simp, by simp [lockRange, onRange],
      by simp [lockRange, onRange], by simp [lockRange, onRange]⟩
  | cons b rest => exact rangeLoop_good env fuel [] rfl b rest true 0 (by simp)

/-- **C13.** `lock(m1, ..., mn)`, for two to five lockables, however they behave and however long it takes: if it returns it holds all of them, each once; if it throws
it holds none. -/
theorem lock_all_or_nothing (env : Env) {ms : List Nat} (ha : 2 ≤ ms.length ∧ ms.length ≤ 5) (fuel : Nat) :
    (∀ tr u, lockN env ms fuel = .returned tr u → ∃ held, Leaves tr held ∧ held.Perm ms) ∧
    (∀ tr, lockN env ms fuel = .threw tr → Leaves tr []) ∧ (∀ tr, lockN env ms fuel ≠ .spins tr) := by
  have g := lockN_good env ha fuel
  exact ⟨fun tr u h => by simpa using g.ret tr u h trivial, g.thr, g.spin⟩

/-- **C13**, the same for ranges of any length. -/
theorem range_lock_all_or_nothing (env : Env) (ms : List Nat) (fuel : Nat) :
    (∀ tr u, lockRange env ms fuel = .returned tr u → ∃ held, Leaves tr held ∧ held.Perm ms) ∧
    (∀ tr, lockRange env ms fuel = .threw tr → Leaves tr []) ∧ (∀ tr, lockRange env ms fuel ≠ .spins tr) := by
  have g := lockRange_good env ms fuel
  exact ⟨fun tr u h => by simpa using g.ret tr u h trivial, g.thr, g.spin⟩

/-- **C13, C14.** The histories these theorems speak about are what the lockables answered: no call treats a failed `try_lock` as a success or the reverse. -/
theorem histories_are_faithful (env : Env) (ms : List Nat) (fuel : Nat) :
    Faithful env (lockN env ms fuel).trace ∧ Faithful env (lockRange env ms fuel).trace ∧
    Faithful env (tryLockN env ms).trace ∧ Faithful env (tryRange env [] ms).trace := by
  refine ⟨lockLoop_faithful env ms fuel [] 0 (.nil env), ?_, ?_, tryRange_faithful env ms [] (.nil env)⟩
  · cases ms with
    | nil => exact .nil env
    | cons b rest => exact rangeLoop_faithful env fuel [] b rest true 0 (.nil env)
  · have := tryInternal_faithful env ms [] (.nil env)
    simp only [tryLockN]
    split <;> next h => (rw [h] at this; exact this)

/-- A thread inside `lock`, with `tr` behind it, is about to call, or blocked in, `lock()` of lockable `m`. -/
def Blocked (tr : Trace) (m : Nat) : Prop :=
  ∃ (env : Env) (ms : List Nat) (fuel : Nat) (ok : Bool) (post : Trace),
    ((2 ≤ ms.length ∧ ms.length ≤ 5) ∧ (lockN env ms fuel).trace = tr ++ .lock m ok :: post) ∨ (lockRange env ms fuel).trace = tr ++ .lock m ok :: post

/-- **C13.** While it is blocked it holds none. -/
theorem never_holds_while_blocking {tr : Trace} {m : Nat} (h : Blocked tr m) : Leaves tr [] := by
  obtain ⟨env, ms, fuel, ok, post, ⟨ha, h⟩ | h⟩ := h
  · obtain ⟨held, hl⟩ := good_trace (lockN_good env ha fuel); rw [h] at hl; exact leaves_prefix hl
  · obtain ⟨held, hl⟩ := good_trace (lockRange_good env ms fuel); rw [h] at hl; exact leaves_prefix hl

/-- **C13.** So threads inside `lock` never wait for each other: if `t` is blocked on a lockable held by `u`, then `u` is not blocked. There is no cycle, whatever the
argument orders. -/
theorem no_deadlock (tr : Nat → Trace) {t u m : Nat} {held : List Nat} (_ht : Blocked (tr t) m) (hu : Leaves (tr u) held) (hm : m ∈ held) :
    ∀ m', ¬ Blocked (tr u) m' := by
  intro m' hb
  have := never_holds_while_blocking hb
  simp only [Leaves] at hu this
  rw [this] at hu
  cases hu
  cases hm

/-- Lockables 1 and 3 are held by somebody else until the fourth operation; nothing throws. -/
def busyEnv : Env := { lock := fun _ _ => true, tryLock := fun tr m => if tr.length < 4 ∧ m ≠ 2 then .no else .yes }

/-- The call backs off from 2, blocks on 1, and succeeds. -/
example : lockN busyEnv [2, 1, 3] 5 = .returned [.lock 2 true, .tryLock 1 .no, .unlock 2, .lock 1 true, .tryLock 3 .yes, .tryLock 2 .yes] () := by decide

example : lockRange busyEnv [2, 1, 3, 4] 5 =
    .returned [.lock 2 true, .tryLock 1 .no, .unlock 2, .lock 1 true, .tryLock 3 .yes, .tryLock 4 .yes, .tryLock 2 .yes] () := by decide

example : Blocked [.lock 2 true, .tryLock 1 .no, .unlock 2] 1 :=
  ⟨busyEnv, [2, 1, 3], 5, true, [.tryLock 3 .yes, .tryLock 2 .yes], Or.inl ⟨by decide, by decide⟩⟩

/-- A lockable that throws: everything is released. -/
example : lockRange { lock := fun _ _ => true, tryLock := fun _ m => if m = 4 then .throws else .yes } [1, 2, 3, 4] 5 =
    .threw [.lock 1 true, .tryLock 2 .yes, .tryLock 3 .yes, .tryLock 4 .throws, .unlock 3, .unlock 2, .unlock 1] := by decide

/-- After a failure the next attempt begins with the lockable that was not available. -/
theorem retry_starts_with_failed {ms : List Nat} (ha : 2 ≤ ms.length ∧ ms.length ≤ 5) {i f : Nat} (hi : i < ms.length) (hf : 1 ≤ f) (hf' : f < ms.length) :
    ∃ args args', caseArgs ms i = some args ∧ caseArgs ms (nextFirst ms.length i f) = some args' ∧ args'.head? = args[f]? := by
  have hn : nextFirst ms.length i f < ms.length := by
    simp only [nextFirst]; split
    · exact hf'
    · exact Nat.mod_lt _ (by omega)
  refine ⟨_, _, caseArgs_eq ha hi, caseArgs_eq ha hn, ?_⟩
  have e : nextFirst ms.length i f = (f + i) % ms.length := by
    simp only [nextFirst]; split
    · next h => subst h; rw [Nat.add_zero, Nat.mod_eq_of_lt hf']
    · rfl
  have hd : (ms.drop (nextFirst ms.length i f) ++ ms.take (nextFirst ms.length i f)).head? = ms[nextFirst ms.length i f]? := by
    rw [List.head?_append, List.head?_drop, List.getElem?_eq_getElem hn]; rfl
  rw [hd, e, List.getElem?_append]
  simp only [List.length_drop]
  by_cases h : f + i < ms.length
  · rw [Nat.mod_eq_of_lt h, if_pos (by omega), List.getElem?_drop, Nat.add_comm]
  · have e2 : (f + i) % ms.length = f + i - ms.length := by
      rw [Nat.mod_eq_sub_mod (by omega), Nat.mod_eq_of_lt (by omega)]
    rw [e2, if_neg (by omega), List.getElem?_take, if_pos (by omega)]
    congr 1; omega

/-! ## `try_lock` -/

/-- The operations of a `try_lock` over `ms` that fails at position `j`, where `m` is: everything before succeeded and is released again. -/
def failTrace (ms : List Nat) (j m : Nat) : Trace :=
  (ms.take j).map (.tryLock · .yes) ++ [.tryLock m .no] ++ (ms.take j).reverse.map .unlock

/-- The operations of a `try_lock` over `ms` that succeeds. -/
def successTrace (ms : List Nat) : Trace := ms.map (.tryLock · .yes)

theorem tryInternal_trace (env : Env) (tr : Trace) (ms : List Nat) :
    (∀ tr', tryInternal env tr ms = .returned tr' 0 → tr' = tr ++ successTrace ms) ∧
    (∀ tr' j, tryInternal env tr ms = .returned tr' (j + 1) → ∃ m, ms[j]? = some m ∧ tr' = tr ++ failTrace ms j m) := by
  induction ms generalizing tr with
  | nil => simp [tryInternal, successTrace]
  | cons m ms ih =>
    cases ms with
    | nil =>
      simp only [tryInternal]
      split
      · exact ⟨by rintro _ ⟨⟩; rfl, by rintro _ _ ⟨⟩⟩
      · exact ⟨by rintro _ ⟨⟩, by rintro _ _ ⟨⟩; exact ⟨m, rfl, by simp [failTrace]⟩⟩
      · exact ⟨by simp, by simp⟩
    | cons m' ms =>
      simp only [tryInternal]
      split
      · exact ⟨by simp, by simp⟩
      · exact ⟨by rintro _ ⟨⟩, by rintro _ _ ⟨⟩; exact ⟨m, rfl, by simp [failTrace]⟩⟩
      · obtain ⟨i1, i2⟩ := ih (tr ++ [.tryLock m .yes])
        split
        · next heq => exact ⟨by rintro _ ⟨⟩; rw [i1 _ heq]; simp [successTrace], by rintro _ _ ⟨⟩⟩
        · next f heq =>
          refine ⟨by rintro _ ⟨⟩, ?_⟩
          rintro _ _ ⟨⟩
          obtain ⟨x, h1, h2⟩ := i2 _ _ heq
          exact ⟨x, by simpa using h1, by rw [h2]; simp [failTrace]⟩
        · next o h0 h1 =>
          cases ho : tryInternal env (tr ++ [.tryLock m .yes]) (m' :: ms) with
          | returned tr' f =>
            cases f with
            | zero => exact absurd ho (h0 tr')
            | succ f => exact absurd ho (h1 tr' f)
          | _ => simp [Out.onThrow]

theorem tryRange_trace (env : Env) (tr : Trace) (ms : List Nat) :
    (∀ tr', tryRange env tr ms = .returned tr' none → tr' = tr ++ successTrace ms) ∧
    (∀ tr' j, tryRange env tr ms = .returned tr' (some j) → ∃ m, ms[j]? = some m ∧ tr' = tr ++ failTrace ms j m) := by
  induction ms generalizing tr with
  | nil => simp [tryRange, successTrace]
  | cons m ms ih =>
    simp only [tryRange]
    split
    · exact ⟨by simp, by simp⟩
    · exact ⟨by rintro _ ⟨⟩, by rintro _ _ ⟨⟩; exact ⟨m, rfl, by simp [failTrace]⟩⟩
    · obtain ⟨i1, i2⟩ := ih (tr ++ [.tryLock m .yes])
      split
      · next heq => exact ⟨by rintro _ ⟨⟩; rw [i1 _ heq]; simp [successTrace], by rintro _ _ ⟨⟩⟩
      · next f heq =>
        refine ⟨by rintro _ ⟨⟩, ?_⟩
        rintro _ _ ⟨⟩
        obtain ⟨x, h1, h2⟩ := i2 _ _ heq
        exact ⟨x, by simpa using h1, by rw [h2]; simp [failTrace]⟩
      · next o h0 h1 =>
        cases ho : tryRange env (tr ++ [.tryLock m .yes]) ms with
        | returned tr' f =>
          cases f with
          | none => exact absurd ho (h0 tr')
          | some f => exact absurd ho (h1 tr' f)
        | _ => simp [Out.onThrow]

/-- **C14.** `try_lock(m1, ..., mn)`: -1 (`none`) means that every `try_lock` succeeded, in order, and all are held; `j` means that the `j`-th was the first to fail,
that all before succeeded and were released, that nothing after was touched, and that none is held; if a `try_lock` throws none is held either. It always ends. -/
theorem try_lock_reports_first_failure (env : Env) (ms : List Nat) :
    (∀ tr, tryLockN env ms = .returned tr none → tr = successTrace ms ∧ ∃ held, Leaves tr held ∧ held.Perm ms) ∧
    (∀ tr j, tryLockN env ms = .returned tr (some j) → ∃ m, ms[j]? = some m ∧ tr = failTrace ms j m ∧ Leaves tr []) ∧
    (∀ tr, tryLockN env ms = .threw tr → Leaves tr []) ∧
    ((∃ tr r, tryLockN env ms = .returned tr r) ∨ ∃ tr, tryLockN env ms = .threw tr) := by
  obtain ⟨g, gl, gr⟩ := tryInternal_good env [] [] ms rfl
  obtain ⟨t1, t2⟩ := tryInternal_trace env [] ms
  simp only [tryLockN]
  cases h : tryInternal env [] ms with
  | returned tr f =>
    cases f with
    | zero =>
      refine ⟨?_, by simp, by simp, by simp⟩
      rintro tr ⟨⟩
      exact ⟨by simpa using t1 _ h, by simpa using g.ret _ _ h rfl⟩
    | succ f =>
      refine ⟨by simp, ?_, by simp, by simp⟩
      rintro tr j ⟨⟩
      obtain ⟨m, h1, h2⟩ := t2 _ _ h
      exact ⟨m, h1, by simpa using h2, g.fail _ _ h (by simp)⟩
  | threw tr => exact ⟨by simp, by simp, by rintro tr ⟨⟩; exact g.thr _ h, by simp⟩
  | running tr => exact absurd h (gr tr)
  | spins tr => exact absurd h (g.spin tr)

/-- **C14**, the same for ranges; `none` is `end`. -/
theorem range_try_lock_reports_first_failure (env : Env) (ms : List Nat) :
    (∀ tr, tryRange env [] ms = .returned tr none → tr = successTrace ms ∧ ∃ held, Leaves tr held ∧ held.Perm ms) ∧
    (∀ tr j, tryRange env [] ms = .returned tr (some j) → ∃ m, ms[j]? = some m ∧ tr = failTrace ms j m ∧ Leaves tr []) ∧
    (∀ tr, tryRange env [] ms = .threw tr → Leaves tr []) ∧
    ((∃ tr r, tryRange env [] ms = .returned tr r) ∨ ∃ tr, tryRange env [] ms = .threw tr) := by
  obtain ⟨g, gl, gr⟩ := tryRange_good env [] [] ms rfl
  obtain ⟨t1, t2⟩ := tryRange_trace env [] ms
  cases h : tryRange env [] ms with
  | returned tr f =>
    cases f with
    | none =>
      refine ⟨?_, by simp, by simp, by simp⟩
      rintro tr ⟨⟩
      exact ⟨by simpa using t1 _ h, by simpa using g.ret _ _ h rfl⟩
    | some f =>
      refine ⟨by simp, ?_, by simp, by simp⟩
      rintro tr j ⟨⟩
      obtain ⟨m, h1, h2⟩ := t2 _ _ h
      exact ⟨m, h1, by simpa using h2, g.fail _ _ h (by simp)⟩
  | threw tr => exact ⟨by simp, by simp, by rintro tr ⟨⟩; exact g.thr _ h, by simp⟩
  | running tr => exact absurd h (gr tr)
  | spins tr => exact absurd h (g.spin tr)

example : tryLockN { lock := fun _ _ => true, tryLock := fun _ m => if m = 9 then .no else .yes } [7, 8, 9, 7] =
    .returned [.tryLock 7 .yes, .tryLock 8 .yes, .tryLock 9 .no, .unlock 8, .unlock 7] (some 2) := by decide

example : tryRange { lock := fun _ _ => true, tryLock := fun _ _ => .yes } [] [7, 8] = .returned [.tryLock 7 .yes, .tryLock 8 .yes] none := by decide

/-! ## Factories of locks -/

theorem leaves_unlock {tr : Trace} {held ms : List Nat} (h : Leaves tr held) (hp : held.Perm ms) : Leaves (tr ++ ms.map .unlock) [] := by
  induction ms generalizing tr held with
  | nil => rw [List.perm_nil.1 hp] at h; simpa using h
  | cons m ms ih =>
    have hm : m ∈ held := hp.symm.subset List.mem_cons_self
    have h1 : Leaves (tr ++ [.unlock m]) (held.erase m) := by
      simp only [Leaves] at h ⊢
      rw [specState_append, h]
      simp [specState, specNext, hm]
    have h2 := ih h1 (by simpa using hp.erase m)
    simpa using h2

/-- **C13 (factories).** `make_unique_locks(m1, ..., mn)`: if it returns, the caller holds every lockable once, the locks returned are for the lockables given, in their order, and own them; whatever the
order in which they are destroyed, each lockable is then unlocked, once, and nothing is held. If it throws, nothing is held. -/
theorem unique_locks (env : Env) {ms : List Nat} (ha : 2 ≤ ms.length ∧ ms.length ≤ 5) (fuel : Nat) :
    (∀ tr ls, makeUniqueLocks env ms fuel = .returned tr ls → ls.map (·.m) = ms ∧ (∀ l ∈ ls, l.owns = true) ∧ (∃ held, Leaves tr held ∧ held.Perm ms) ∧
      ∀ ls', ls'.Perm ls → Leaves (tr ++ destroyLocks ls') [] ∧ (destroyLocks ls').Perm (ms.map .unlock)) ∧
    (∀ tr, makeUniqueLocks env ms fuel = .threw tr → Leaves tr []) ∧ (∀ tr, makeUniqueLocks env ms fuel ≠ .spins tr) := by
  have g := lock_all_or_nothing env ha fuel
  cases hl : lockN env ms fuel with
  | returned tr u =>
    simp only [makeUniqueLocks, hl]
    refine ⟨?_, by simp, by simp⟩
    intro tr' ls he
    cases he
    obtain ⟨held, h1, h2⟩ := g.1 tr u hl
    refine ⟨by simp [Function.comp_def], by simp, ⟨held, h1, h2⟩, ?_⟩
    intro ls' hp
    have hf : ls'.filter (·.owns) = ls' := List.filter_eq_self.2 fun l hl => by
      have := hp.subset hl
      simp only [List.mem_map] at this
      obtain ⟨m, -, rfl⟩ := this
      rfl
    have hm : (ls'.map (·.m)).Perm ms := by simpa [Function.comp_def] using hp.map (·.m)
    have he : destroyLocks ls' = (ls'.map (·.m)).map .unlock := by simp [destroyLocks, hf, Function.comp_def]
    rw [he]
    exact ⟨leaves_unlock h1 (h2.trans hm.symm), hm.map _⟩
  | threw tr =>
    simp only [makeUniqueLocks, hl]
    exact ⟨by simp, fun tr' he => by cases he; exact g.2.1 tr hl, by simp⟩
  | running tr => simp [makeUniqueLocks, hl]
  | spins tr => exact absurd hl (g.2.2 tr)

/-- **C13 (factories).** `make_unique_lock` with each of its tags: the lock returned owns the lockable exactly if the call has acquired it or has been told that the caller holds it, and its destructor
gives back what it owns and nothing else. -/
theorem unique_lock_of (env : Env) (m : Nat) (tag : Tag) :
    (∀ tr l, makeUniqueLock env [] m tag = .returned tr l → l.m = m ∧ (tag ≠ .adopt → Leaves tr (if l.owns then [m] else []) ∧ Leaves (tr ++ destroyLocks [l]) []) ∧
      (tag = .adopt → tr = [] ∧ destroyLocks [l] = [.unlock m]) ∧ (tag = .plain → l.owns = true) ∧ (tag = .defer → tr = [] ∧ l.owns = false) ∧
      (tag = .tryTo → (l.owns = true ↔ env.tryLock [] m = .yes))) ∧
    (∀ tr, makeUniqueLock env [] m tag = .threw tr → Leaves tr [] ∧ ((tag = .plain ∧ env.lock [] m = false) ∨ (tag = .tryTo ∧ env.tryLock [] m = .throws))) := by
  cases tag <;> simp only [makeUniqueLock]
  · split <;> next h => simp [Leaves, specState, specNext, destroyLocks, h]
  · simp [destroyLocks]
  · simp [Leaves, specState, destroyLocks]
  · split <;> next h => simp [Leaves, specState, specNext, destroyLocks, h]

/-- Three lockables; the second cannot be locked at the first attempt. -/
def busyOnce : Env where
  lock := fun _ _ => true
  tryLock := fun tr m => if m = 1 ∧ tr.length < 2 then .no else .yes

example : makeUniqueLocks busyOnce [0, 1, 2] 5 =
    .returned [.lock 0 true, .tryLock 1 .no, .unlock 0, .lock 1 true, .tryLock 2 .yes, .tryLock 0 .yes] [⟨0, true⟩, ⟨1, true⟩, ⟨2, true⟩] := by decide +kernel

end Verif.LockAlg
