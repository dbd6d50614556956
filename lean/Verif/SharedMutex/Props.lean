import Verif.SharedMutex.Returns
import Verif.SharedMutex.Sim
/-! # Properties C07, C08 and C09: `boost::shared_mutex` (POSIX) -/

namespace Verif.SharedMutex

theorem allowed_of_not_uses {ls : List Label} (hu : ¬ (uses .timedSharedToExclusive ls ∧ uses .upgradeToExclusive ls)) :
    ∃ b, ∀ l ∈ ls, Allowed b l := by
  by_cases h1 : uses .timedSharedToExclusive ls
  · refine ⟨false, fun l hl t tm => ⟨by simp, fun _ he => hu ⟨h1, t, tm, he ▸ hl⟩⟩⟩
  · refine ⟨true, fun l hl t tm => ⟨fun _ he => h1 ⟨t, tm, he ▸ hl⟩, by simp⟩⟩

/-! ### C07 -/

/-- **C07, the part that holds.** Full statement: every history of a `shared_mutex` is accepted by the specification
(`Accepts specNext free es` without the hypothesis `hu`). Proved for every number of threads, every schedule, spurious
wake-ups and time-outs, provided the schedule does not use both `try_unlock_shared_and_lock_for/until` and
`unlock_upgrade_and_lock`; with both it is false (`two_writers`). -/
theorem exclusion_partial (n : Nat) (ls : List Label) (s : State) (es : List Event)
    (hu : ¬ (uses .timedSharedToExclusive ls ∧ uses .upgradeToExclusive ls))
    (h : run step (init n) ls = some (s, es)) : Accepts specNext free es := by
  obtain ⟨b, hb⟩ := allowed_of_not_uses hu
  exact simulation_on (Allowed b) (R b) (fun s l s' es o hl hR hs => step_sim s l s' es o hl hR hs) hb (R_init b n) h

/-- What acceptance by the specification means: at every moment a writer excludes all other owners, and there is
never more than one upgrade owner or writer (these are `Option`s). -/
theorem accepted_exclusive (es : List Event) (o : Own) (h : specState specNext free es = some o) : o.Exclusive := by
  have key : ∀ (es : List Event) (o₀ o : Own), o₀.Exclusive → specState specNext o₀ es = some o → o.Exclusive := by
    intro es
    induction es with
    | nil => intro o₀ o h0 h; simp only [specState, Option.some.injEq] at h; exact h ▸ h0
    | cons e es ih =>
      intro o₀ o h0 h
      simp only [specState] at h
      split at h
      · next o₁ hn =>
        refine ih o₁ o ?_ h
        unfold Own.Exclusive at *
        cases e with
        | blocked t op => cases op <;> simp only [specNext, Verdict.ok.injEq] at hn <;> subst hn <;> exact h0
        | called t op => cases op <;> grind [specNext, pre]
        | granted t op =>
          cases op <;> simp only [specNext, Own.addReader, Own.setUpgrader, Own.setWriter, Own.upgradeToWriter,
            Own.readerToWriter, Own.readerToUpgrader, must] at hn <;> split at hn <;> cases hn <;> simp_all
        | timedOut t op => cases op <;> simp only [specNext, Verdict.ok.injEq] at hn <;> subst hn <;> exact h0
        | tried t op r =>
          cases op <;> cases r <;> simp only [specNext, Own.addReader, Own.setUpgrader, Own.setWriter, Own.upgradeToWriter,
            Own.readerToWriter, Own.readerToUpgrader, must, pre] at hn <;> (repeat' split at hn) <;> cases hn <;> simp_all
        | released t m => cases m <;> simp only [specNext, pre] at hn <;> split at hn <;> cases hn <;> simp_all
        | downgraded t c => cases c <;> simp only [specNext, pre] at hn <;> split at hn <;> cases hn <;> simp_all
      · cases h
      · cases h
  exact key es free o (by simp [Own.Exclusive, free]) h

/-- **C07, counters.** As long as clients keep the contract, the reader count is exactly the number of shared
owners plus one for an upgrade owner not in the middle of an upgrade: it never under-runs. -/
theorem counter_exact_partial (n : Nat) (ls : List Label) (s : State) (es : List Event) (o : Own)
    (hu : ¬ (uses .timedSharedToExclusive ls ∧ uses .upgradeToExclusive ls))
    (h : run step (init n) ls = some (s, es)) (ho : specState specNext free es = some o) :
    s.data.sharedCount = o.readers.length + (if o.upgrader.isSome ∧ o.converting = false then 1 else 0) := by
  obtain ⟨b, hb⟩ := allowed_of_not_uses hu
  have hR := simulation_state_on (Allowed b) (R b) (fun s l s' es o hl hR hs => step_sim s l s' es o hl hR hs) hb
    (R_init b n) h ho
  rw [hR.data.count]
  cases o.upgrader <;> cases o.converting <;> simp

/-- A schedule using shared, upgrade and exclusive requests, upgrades, time-outs and downgrades. -/
def demo : List Label :=
  [.call 0 .shared false, .call 1 .upgrade true, .call 2 .exclusive false, .call 3 .shared true, .tryCall 4 .upgrade,
   .call 1 .upgradeToExclusive false, .timeout 3, .resume 3 none, .unlock 0 .shared (some 2) (some 1), .resume 2 none,
   .resume 1 none, .down 1 .exclusiveToUpgrade (some 2), .call 3 .shared false, .resume 2 none,
   .down 1 .upgradeToShared (some 2), .resume 2 none, .unlock 1 .shared none none, .unlock 3 .shared (some 2) none, .resume 2 none]

example : (run step (init 5) demo).map Prod.snd = some
    [.granted 0 .shared, .granted 1 .upgrade, .blocked 2 .exclusive, .blocked 3 .shared, .tried 4 .upgrade false,
     .called 1 .upgradeToExclusive, .blocked 1 .upgradeToExclusive, .timedOut 3 .shared, .released 0 .shared,
     .granted 1 .upgradeToExclusive, .downgraded 1 .exclusiveToUpgrade, .granted 3 .shared,
     .downgraded 1 .upgradeToShared, .released 1 .shared, .released 3 .shared, .granted 2 .exclusive] := by
  decide

example : ∀ t tm, Label.call t .timedSharedToExclusive tm ∉ demo := by simp [demo]

/-- Non-vacuity of the contract hypothesis: this history stays inside the contract and ends with thread 2 as writer. -/
example : ((run step (init 5) demo).bind fun r => specState specNext free r.2) =
    some { readers := [], upgrader := none, writer := some 2, converting := false, pending := [] } := by decide

/-- The schedule of `two_writers`. -/
def twoWriters : List Label :=
  [.call 0 .shared false, .call 1 .upgrade false, .call 1 .upgradeToExclusive false, .call 0 .timedSharedToExclusive true,
   .spurious 1, .resume 1 none]

/-- **C07, negation.** With `unlock_upgrade_and_lock` waiting for the last reader, a `try_unlock_shared_and_lock_until` by that
reader sees one shared owner and becomes the writer (shared_mutex.hpp:572-579); after a spurious wake-up the upgrading
thread sees no shared owner and becomes writer too (460-462). Nobody broke the contract and nobody released. -/
theorem two_writers :
    (run step (init 2) twoWriters).map Prod.snd = some
      [.granted 0 .shared, .granted 1 .upgrade, .called 1 .upgradeToExclusive, .blocked 1 .upgradeToExclusive,
       .called 0 .timedSharedToExclusive, .granted 0 .timedSharedToExclusive, .granted 1 .upgradeToExclusive] ∧
    ¬ Accepts specNext free
      [.granted 0 .shared, .granted 1 .upgrade, .called 1 .upgradeToExclusive, .blocked 1 .upgradeToExclusive,
       .called 0 .timedSharedToExclusive, .granted 0 .timedSharedToExclusive, .granted 1 .upgradeToExclusive] := by
  decide

/-! ### C08 -/

theorem spec_keeps_upgrader {o o' : Own} {t : Nat} {e : Event} (hE : o.Exclusive) (hu : o.upgrader = some t)
    (hn : specNext o e = .ok o') (hd : ¬ e.dropsUpgrade t) (ht : e.takes ≠ some t) :
    e.takes = none ∧ o'.upgrader = some t ∧ o'.Exclusive := by
  have hw : o.writer = none := by
    cases h : o.writer with
    | none => rfl
    | some => have := hE (by simp [h]); simp_all
  unfold Event.dropsUpgrade at hd
  cases e with
  | blocked t op => cases op <;> simp only [specNext, Verdict.ok.injEq] at hn <;> subst hn <;> simp_all [Event.takes, Own.Exclusive]
  | called t op =>
    cases op <;> simp only [specNext, pre] at hn <;> (repeat' split at hn) <;> cases hn <;>
      simp_all [Event.takes, Own.Exclusive]
  | granted t op =>
    cases op <;> simp only [specNext, Own.addReader, Own.setUpgrader, Own.setWriter, Own.upgradeToWriter,
      Own.readerToWriter, Own.readerToUpgrader, must] at hn <;> split at hn <;> cases hn <;>
      simp_all [Event.takes, Own.Exclusive]
  | timedOut t op => cases op <;> simp only [specNext, Verdict.ok.injEq] at hn <;> subst hn <;> simp_all [Event.takes, Own.Exclusive]
  | tried t op r =>
    cases op <;> cases r <;> simp only [specNext, Own.addReader, Own.setUpgrader, Own.setWriter, Own.upgradeToWriter,
      Own.readerToWriter, Own.readerToUpgrader, must, pre] at hn <;> (repeat' split at hn) <;> cases hn <;>
      simp_all [Event.takes, Own.Exclusive]
  | released t m =>
    cases m <;> simp only [specNext, pre] at hn <;> split at hn <;> cases hn <;> simp_all [Event.takes, Own.Exclusive]
  | downgraded t c =>
    cases c <;> simp only [specNext, pre] at hn <;> split at hn <;> cases hn <;> simp_all [Event.takes, Own.Exclusive]

/-- **C08, the part that holds.** Full statement: the same without `hu`. From any moment (history `es`) at which `t` is the
upgrade owner, and as long as it neither gives upgrade ownership up nor takes exclusive ownership itself (events
`mid`), nobody obtains upgrade or exclusive ownership. In particular nothing is written between
the call of a conversion to exclusive ownership and its completion. -/
theorem upgrade_owner_not_overtaken_partial (n : Nat) (ls : List Label) (s : State) (es mid : List Event) (t : Nat) (o : Own)
    (hu : ¬ (uses .timedSharedToExclusive ls ∧ uses .upgradeToExclusive ls))
    (h : run step (init n) ls = some (s, es ++ mid))
    (ho : specState specNext free es = some o) (ht : o.upgrader = some t)
    (hc : ClientOk specNext free (es ++ mid))
    (hkeep : ∀ e ∈ mid, ¬ e.dropsUpgrade t ∧ e.takes ≠ some t) :
    ∀ e ∈ mid, e.takes = none := by
  obtain ⟨o', ho'⟩ := (exclusion_partial n ls s _ hu h).specState_isSome hc
  rw [specState_append, ho] at ho'
  have hE := accepted_exclusive es o ho
  clear h ho hu hc
  induction mid generalizing o with
  | nil => simp
  | cons e mid ih =>
    simp only [Option.bind_some, specState] at ho'
    split at ho'
    · next o₁ hn =>
      obtain ⟨h1, h2⟩ := hkeep e (List.mem_cons_self ..)
      obtain ⟨k1, k2, k3⟩ := spec_keeps_upgrader hE ht hn h1 h2
      intro e' he'
      rcases List.mem_cons.mp he' with rfl | he'
      · exact k1
      · exact ih o₁ k2 (fun e he => hkeep e (List.mem_cons_of_mem _ he)) ho' k3 e' he'
    · cases ho'
    · cases ho'

/-- Non-vacuity: thread 1 is upgrade owner and converts; meanwhile thread 2 asks for exclusive ownership, thread 3 tries to
get upgrade ownership and reader 0 leaves. -/
example : ∃ s es mid,
    run step (init 4) [.call 0 .shared false, .call 1 .upgrade false, .call 1 .upgradeToExclusive false,
      .call 2 .exclusive false, .tryCall 3 .upgrade, .unlock 0 .shared (some 2) (some 1)] = some (s, es ++ mid) ∧
    specState specNext free es =
      some { readers := [0], upgrader := some 1, writer := none, converting := false, pending := [] } ∧
    ClientOk specNext free (es ++ mid) ∧ (∀ e ∈ mid, ¬ e.dropsUpgrade 1 ∧ e.takes ≠ some 1) ∧ mid.length = 5 :=
  ⟨_, [.granted 0 .shared, .granted 1 .upgrade],
    [.called 1 .upgradeToExclusive, .blocked 1 .upgradeToExclusive, .blocked 2 .exclusive, .tried 3 .upgrade false,
      .released 0 .shared], rfl, by decide, by decide, by simp [Event.dropsUpgrade, Event.takes], rfl⟩

/-- **C08, negation.** With `try_unlock_shared_and_lock_until` another thread does become writer in the middle of the
conversion. -/
theorem upgrade_overtaken :
    ∃ s es mid, run step (init 2) twoWriters = some (s, es ++ mid) ∧
      (∃ o, specState specNext free es = some o ∧ o.upgrader = some 1 ∧ o.converting = true) ∧
      Event.granted 0 .timedSharedToExclusive ∈ mid ∧
      mid.getLast? = some (.granted 1 .upgradeToExclusive) :=
  ⟨_, [.granted 0 .shared, .granted 1 .upgrade, .called 1 .upgradeToExclusive, .blocked 1 .upgradeToExclusive],
    [.called 0 .timedSharedToExclusive, .granted 0 .timedSharedToExclusive, .granted 1 .upgradeToExclusive],
    rfl, ⟨_, rfl, rfl, rfl⟩, by simp, rfl⟩

/-! ### C09 -/

/-- The four operations for which wake-ups are not lost. -/
def plain : Op → Bool
  | .shared => true
  | .upgrade => true
  | .exclusive => true
  | .upgradeToExclusive => true
  | _ => false

theorem related {n : Nat} {ls : List Label} {s : State} {es : List Event} {o : Own}
    (hu : ¬ (uses .timedSharedToExclusive ls ∧ uses .upgradeToExclusive ls))
    (h : run step (init n) ls = some (s, es)) (ho : specState specNext free es = some o) : ∃ b, R b s o := by
  obtain ⟨b, hb⟩ := allowed_of_not_uses hu
  exact ⟨b, simulation_state_on (Allowed b) (R b) (fun s l s' es o hl hR hs => step_sim s l s' es o hl hR hs) hb
    (R_init b n) h ho⟩

theorem run_ew {n : Nat} {ls : List Label} {s : State} {es : List Event}
    (h : run step (init n) ls = some (s, es)) : EW s :=
  run_inv EW (fun s l s' es hi hs => step_ew s l s' es hi hs) (by simp [EW, init]) h

/-- **C09, the part that holds.** Full statement: a thread asleep in any operation has a reason: somebody owns the mutex and
has yet to release it, or some thread is already awake and obtains it with its next step. Proved for `lock_shared`,
`lock_upgrade`, `lock` (and their timed forms) and `unlock_upgrade_and_lock`. An upgrading thread is only
waiting for readers. -/
theorem no_lost_wakeup_partial (n : Nat) (ls : List Label) (s : State) (es : List Event) (o : Own) (t : Nat) (op : Op)
    (hu : ¬ (uses .timedSharedToExclusive ls ∧ uses .upgradeToExclusive ls))
    (h : run step (init n) ls = some (s, es)) (ho : specState specNext free es = some o)
    (hop : plain op = true) (ht : Asleep s t op) :
    o.readers ≠ [] ∨ (op ≠ .upgradeToExclusive ∧ (o.writer.isSome ∨ o.upgrader.isSome)) ∨ ∃ u, AboutToWrite s u := by
  obtain ⟨b, hR⟩ := related hu h ho
  obtain ⟨h1, h2, h3, h4, h5, h6⟩ := hR.data
  obtain ⟨w1, w2, w3, w4⟩ := hR.wake
  obtain ⟨tm, htm⟩ := ht
  by_cases hrd : o.readers ≠ []
  · exact Or.inl hrd
  have hrd : o.readers = [] := by simpa using hrd
  right
  by_cases hcv : o.converting = true
  · by_cases hopc : op = .upgradeToExclusive
    · subst hopc
      have := w4 (cnt_pos htm rfl)
      simp [hcv, hrd] at h3
      exact absurd h3 this
    · exact Or.inl ⟨hopc, Or.inr (h5 hcv)⟩
  · by_cases hopc : op = .upgradeToExclusive
    · subst hopc
      exact absurd ((hR.pcs t _ htm).2.1 rfl).1 hcv
    · by_cases hown : o.writer.isSome ∨ o.upgrader.isSome
      · exact Or.inl ⟨hopc, hown⟩
      · right
        have hx : s.data.exclusive = false := by grind
        have hg : s.data.upgrade = false := by grind
        have hz : s.data.sharedCount = 0 := by
          rw [h3, hrd]
          have : o.upgrader.isSome = false := by simpa using fun h => hown (Or.inr h)
          simp [this]
        refine wE_about (by simp [Data.canLock, hz, hx]) ?_
        by_cases hae : 0 < cnt aE s.ts
        · exact w3 hz hx hae
        have hE : s.data.exclusiveWaitingBlocked = true → 0 < cnt wE s.ts := by
          intro hb
          have hE := run_ew h hb
          simp only [hx, Bool.false_eq_true, false_or] at hE
          have : cnt isE s.ts = cnt aE s.ts + cnt wE s.ts := cnt_add _ _ _ _ fun p => by
            cases p with
            | idle => rfl
            | asleep op tm => cases op <;> rfl
            | woken op tm => cases op <;> rfl
            | expired op => cases op <;> rfl
          omega
        cases op with
        | shared => exact hE (by simpa [hx] using w1 (cnt_pos htm rfl))
        | upgrade => exact hE (by simpa [hx, hg] using w2 (cnt_pos htm rfl))
        | exclusive => exact absurd (cnt_pos htm rfl) hae
        | upgradeToExclusive => exact absurd rfl hopc
        | _ => simp [plain] at hop

/-- **C09, readers and upgrade owners** are only kept asleep by a writer, by an upgrade in progress, by somebody who is
inside `lock`, or (for `lock_upgrade`) by an upgrade owner. -/
theorem shared_wait_reason_partial (n : Nat) (ls : List Label) (s : State) (es : List Event) (o : Own) (t : Nat) (op : Op)
    (hu : ¬ (uses .timedSharedToExclusive ls ∧ uses .upgradeToExclusive ls))
    (h : run step (init n) ls = some (s, es)) (ho : specState specNext free es = some o)
    (hop : op = .shared ∨ op = .upgrade) (ht : Asleep s t op) :
    o.writer.isSome ∨ o.converting = true ∨ (∃ u, RequestsExclusive s u) ∨ (op = .upgrade ∧ o.upgrader.isSome) := by
  obtain ⟨b, hR⟩ := related hu h ho
  obtain ⟨h1, h2, h3, h4, h5, h6⟩ := hR.data
  obtain ⟨w1, w2, w3, w4⟩ := hR.wake
  obtain ⟨tm, htm⟩ := ht
  have hE := run_ew h
  have he : s.data.exclusive = true → o.writer.isSome = true ∨ o.converting = true := by grind
  have hb : s.data.exclusiveWaitingBlocked = true →
      (o.writer.isSome = true ∨ o.converting = true) ∨ ∃ u, RequestsExclusive s u := fun hb =>
    (hE hb).imp he isE_requests
  rcases hop with rfl | rfl
  · rcases w1 (cnt_pos htm rfl) with h | h
    · grind
    · grind
  · rcases w2 (cnt_pos htm rfl) with h | h | h
    · grind
    · grind
    · grind

/-- Non-vacuity of both: a reader and an upgrade requester kept out by a waiting writer; the writer kept out by a reader. -/
example : ∃ s es o, run step (init 4) [.call 0 .shared false, .call 1 .exclusive false, .call 2 .shared true,
      .call 3 .upgrade false] = some (s, es) ∧ specState specNext free es = some o ∧
    Asleep s 1 .exclusive ∧ Asleep s 2 .shared ∧ Asleep s 3 .upgrade ∧ o.readers = [0] :=
  ⟨_, _, _, rfl, rfl, ⟨false, rfl⟩, ⟨true, rfl⟩, ⟨false, rfl⟩, rfl⟩

/-- Non-vacuity of the last alternative: the reader left and the writer, already awake, is about to take the mutex while a
second writer sleeps. -/
example : ∃ s es o, run step (init 4) [.call 0 .shared false, .call 1 .exclusive false, .call 2 .exclusive false,
      .unlock 0 .shared (some 1) none] = some (s, es) ∧ specState specNext free es = some o ∧
    Asleep s 2 .exclusive ∧ o.readers = [] ∧ AboutToWrite s 1 :=
  ⟨_, _, _, rfl, rfl, ⟨false, rfl⟩, rfl, ⟨_, rfl⟩⟩

/-- Everybody but `t` is outside the mutex's functions, and `t` sleeps in `op` although granting it now
would be right. -/
def Stranded (s : State) (o : Own) (t : Nat) (op : Op) : Prop :=
  Asleep s t op ∧ (∀ u p, u ≠ t → s.ts[u]? = some p → p = .idle) ∧ (∃ o', specNext o (.granted t op) = .ok o')

theorem two_threads {s : State} {p q : PC} {o : Own} {t : Nat} {op : Op} (hs : s.ts = [p, q])
    (ht : t = 0 ∧ q = .idle ∧ p = .asleep op true ∨ t = 1 ∧ p = .idle ∧ q = .asleep op true)
    (ho : ∃ o', specNext o (.granted t op) = .ok o') : Stranded s o t op := by
  rcases ht with ⟨rfl, rfl, rfl⟩ | ⟨rfl, rfl, rfl⟩
  · refine ⟨⟨true, by simp [hs]⟩, ?_, ho⟩
    intro u p hu hp
    rw [hs] at hp
    match u with
    | 0 => contradiction
    | 1 => simpa using hp.symm
    | u + 2 => simp at hp
  · refine ⟨⟨true, by simp [hs]⟩, ?_, ho⟩
    intro u p hu hp
    rw [hs] at hp
    match u with
    | 0 => simpa using hp.symm
    | 1 => contradiction
    | u + 2 => simp at hp

/-- **C09, negation (1).** `try_unlock_upgrade_and_lock_until` waits for the last reader to leave, but the
`unlock_shared` that leaves one owner notifies nobody (shared_mutex.hpp:241-264): the upgrade owner sleeps on until
its deadline although it is the only owner. -/
theorem lost_wakeup_upgrade :
    ∃ s es o, run step (init 2) [.call 0 .shared false, .call 1 .upgrade false, .call 1 .timedUpgradeToExclusive true,
      .unlock 0 .shared none none] = some (s, es) ∧ specState specNext free es = some o ∧
    Stranded s o 1 .timedUpgradeToExclusive :=
  ⟨_, _, _, rfl, rfl, two_threads rfl (Or.inr ⟨rfl, rfl, rfl⟩) ⟨_, rfl⟩⟩

/-- **C09, negation (2).** The same with `try_unlock_shared_and_lock_until`. -/
theorem lost_wakeup_shared_to_exclusive :
    ∃ s es o, run step (init 2) [.call 0 .shared false, .call 1 .shared false, .call 1 .timedSharedToExclusive true,
      .unlock 0 .shared none none] = some (s, es) ∧ specState specNext free es = some o ∧
    Stranded s o 1 .timedSharedToExclusive :=
  ⟨_, _, _, rfl, rfl, two_threads rfl (Or.inr ⟨rfl, rfl, rfl⟩) ⟨_, rfl⟩⟩

/-- **C09, negation (3).** `try_unlock_shared_and_lock_upgrade_until` waits on `exclusive_cond` (line 626), but
`unlock_upgrade` with readers left notifies only `shared_cond` (446-448). -/
theorem lost_wakeup_shared_to_upgrade :
    ∃ s es o, run step (init 2) [.call 0 .upgrade false, .call 1 .shared false, .call 1 .timedSharedToUpgrade true,
      .unlock 0 .upgrade none none] = some (s, es) ∧ specState specNext free es = some o ∧
    Stranded s o 1 .timedSharedToUpgrade :=
  ⟨_, _, _, rfl, rfl, two_threads rfl (Or.inr ⟨rfl, rfl, rfl⟩) ⟨_, rfl⟩⟩

end Verif.SharedMutex
