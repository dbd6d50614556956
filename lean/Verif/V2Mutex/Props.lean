import Verif.V2Mutex.Live
import Verif.V2Mutex.Word
import Verif.V2Mutex.Returns
/-! # C10, C11: the v2 shared and upgrade mutexes -/

set_option linter.unusedSimpArgs false

namespace Verif.V2Mutex

/-- **C10.** Every history of any number of threads conforms to the specification, with any time-outs, spurious wake-ups and interruptions. -/
theorem history_conforms (threads : Nat) {limit : Nat} (hl : 0 < limit) (ls : List Label) (s : State) (es : List Event) (h : run step (init threads limit) ls = some (s, es)) : Accepts (next limit) free es :=
  simulation (Rel limit) (fun _ _ _ _ _ hR hs => sim hR hs) (s := init threads limit) (rel_init threads hl) h

theorem related {threads limit : Nat} {ls : List Label} {s : State} {es : List Event} {o : Own} (hl : 0 < limit) (h : run step (init threads limit) ls = some (s, es)) (ho : specState (next limit) free es = some o) : Rel limit s o :=
  simulation_state (Rel limit) (fun _ _ _ _ _ hR hs => sim hR hs) (s := init threads limit) (rel_init threads hl) h ho

/-- **C10.** A writer excludes everybody. (At most one writer and one upgrade owner are possible in `Own`: a second one is `illegal`.) -/
theorem exclusion {threads limit : Nat} {ls : List Label} {s : State} {es : List Event} {o : Own} (hl : 0 < limit) (h : run step (init threads limit) ls = some (s, es)) (ho : specState (next limit) free es = some o) : o.Exclusive := by
  intro hw
  obtain ⟨t, ht⟩ := Option.isSome_iff_exists.mp hw
  have := (related hl h ho).wr t ht
  exact ⟨this.readers, this.upgrader⟩

/-- **C10, partial.** The counters of the mutex say who owns it, if nobody waits for exclusive ownership and no exclusive request that kept others out was given up.
Missing: it is false after such a conversion has timed out (`phantom_readers`), or a wait was interrupted (`interrupted_writer_stays`). -/
theorem counters_exact_partial {threads limit : Nat} {ls : List Label} {s : State} {es : List Event} {o : Own} (hl : 0 < limit) (h : run step (init threads limit) ls = some (s, es)) (ho : specState (next limit) free es = some o)
    (hd : o.disturbed = false) (hp : o.pending = []) : s.w = o.writer.isSome ∧ s.u = o.upgrader.isSome ∧ s.n = o.owners := by
  have hR := related hl h ho
  cases hw : s.w with
  | false =>
    have hf := hR.fr hw
    exact ⟨by rw [hf.writer]; rfl, hf.u, hf.exact hd⟩
  | true =>
    rcases hR.cases hw with ⟨t, ht, hwr⟩ | ⟨t, op, sv, tm, sl, -, hg⟩ | ⟨ht, -⟩
    · exact ⟨by rw [ht]; rfl, by rw [hwr.u, hwr.upgrader]; rfl, by rw [hwr.n, Own.owners, hwr.readers, hwr.upgrader]; rfl⟩
    · have := hg.pend; rw [hp] at this; cases this
    · simp [Own.disturbed, ht] at hd

/-- **C10, partial.** The number of readers is never less than the number of owners, except for the writer and a thread that waits for its conversion to exclusive ownership, and never more than the limit. -/
theorem counter_bounds {threads limit : Nat} {ls : List Label} {s : State} {es : List Event} {o : Own} (hl : 0 < limit) (h : run step (init threads limit) ls = some (s, es)) (ho : specState (next limit) free es = some o) :
    s.n ≤ limit ∧ (o.thrown = false → o.owners ≤ s.n + (if o.pending = [] then 0 else 1)) := by
  have hR := related hl h ho
  refine ⟨by have := hR.nle; rwa [hR.lim] at this, fun hth => ?_⟩
  cases hw : s.w with
  | false => have := (hR.fr hw).n; omega
  | true =>
    rcases hR.cases hw with ⟨t, ht, hwr⟩ | ⟨t, op, sv, tm, sl, -, hg⟩ | ⟨ht, -⟩
    · rw [Own.owners, hwr.readers, hwr.upgrader]; simp
    · have hne : o.pending ≠ [] := by intro he; have := hg.pend; rw [he] at this; cases this
      have ha := hg.at2
      rw [if_neg hne]
      cases op <;> simp only [At2] at ha <;> simp only [Own.owners, ha.1, Option.toList, List.length_cons, List.length_nil] <;> omega
    · rw [ht] at hth; cases hth

/-! ## What the specification remembers -/

theorem disturbed_step {lim : Nat} {o o' : Own} {e : Event} (hn : next lim o e = .ok o') :
    (o'.thrown = true → o.thrown = true ∨ ∃ t op, e = .threw t op) ∧ (o'.phantom = true → o.phantom = true ∨ ∃ t op, op ≠ .lock ∧ op.exclusive = true ∧ e = .timedOut t op) := by
  unfold next at hn
  split at hn <;> (try simp only [must, pre, Own.setWriter, Own.addReader, Own.setUpgrader, Own.readerToWriter, Own.readerToUpgrader, Own.upgradeToWriter] at hn) <;>
    (repeat' split at hn) <;> cases hn <;> simp <;> simp_all [Own.entered]
  rename_i t op
  rintro (h | ⟨h1, ⟨h2, -⟩, -⟩)
  · exact Or.inl h
  · exact Or.inr ⟨t, op, h1, h2, rfl, rfl⟩

/-- `thrown` and `phantom` tell of events that have happened. -/
theorem disturbed_hist {lim : Nat} {o o' : Own} {es : List Event} (hs : specState (next lim) o es = some o') :
    (o'.thrown = true → o.thrown = true ∨ ∃ t op, .threw t op ∈ es) ∧ (o'.phantom = true → o.phantom = true ∨ ∃ t op, op ≠ .lock ∧ op.exclusive = true ∧ .timedOut t op ∈ es) := by
  induction es generalizing o with
  | nil => simp only [specState, Option.some.injEq] at hs; subst hs; exact ⟨Or.inl, Or.inl⟩
  | cons e es ih =>
    simp only [specState] at hs
    cases hn : next lim o e with
    | ok o1 =>
      simp only [hn] at hs
      have h1 := ih hs
      have h2 := disturbed_step hn
      refine ⟨fun h => ?_, fun h => ?_⟩
      · rcases h1.1 h with h | ⟨t, op, h⟩
        · rcases h2.1 h with h | ⟨t, op, rfl⟩
          · exact Or.inl h
          · exact Or.inr ⟨t, op, by simp⟩
        · exact Or.inr ⟨t, op, by simp [h]⟩
      · rcases h1.2 h with h | ⟨t, op, h3, h4, h⟩
        · rcases h2.2 h with h | ⟨t, op, h3, h4, rfl⟩
          · exact Or.inl h
          · exact Or.inr ⟨t, op, h3, h4, by simp⟩
        · exact Or.inr ⟨t, op, h3, h4, by simp [h]⟩
    | illegal => simp [hn] at hs
    | undefined => simp [hn] at hs

/-- **C10.** A history without interruptions and without timed-out conversions to exclusive ownership is undisturbed. -/
theorem undisturbed {lim : Nat} {o : Own} {es : List Event} (hs : specState (next lim) free es = some o) (h1 : ∀ t op, .threw t op ∉ es) (h2 : ∀ t, .timedOut t .sharedToExclusive ∉ es ∧ .timedOut t .upgradeToExclusive ∉ es) : o.disturbed = false := by
  have hd := disturbed_hist hs
  simp only [Own.disturbed, Bool.or_eq_false_iff]
  refine ⟨?_, ?_⟩
  · cases hp : o.phantom with
    | false => rfl
    | true =>
      rcases hd.2 hp with h | ⟨t, op, h3, h4, h⟩
      · cases h
      · cases op <;> simp_all [Op.exclusive]
  · cases hp : o.thrown with
    | false => rfl
    | true =>
      rcases hd.1 hp with h | ⟨t, op, h⟩
      · cases h
      · exact absurd h (h1 t op)

def Event.isAbort : Event → Bool
  | .callAborts .. => true
  | .tryAborts .. => true
  | .downAborts .. => true
  | _ => false

/-- **C10, partial.** As long as every thread converts and releases only what it owns, no assertion of the library fails, unless a wait was interrupted. So a thread whose timed conversion fails still has what it had.
Missing: after an interruption an assertion may fail (`interrupted_conversion_aborts`). -/
theorem no_abort_partial {threads limit : Nat} {ls : List Label} {s : State} {es : List Event} {o : Own} {e : Event} (hl : 0 < limit) (h : run step (init threads limit) ls = some (s, es)) (ho : specState (next limit) free es = some o)
    (he : e ∈ es) (hab : e.isAbort = true) : ∃ t op, .threw t op ∈ es := by
  have hacc := history_conforms threads hl ls s es h
  obtain ⟨p, q, rfl⟩ := List.append_of_mem he
  rw [specState_append] at ho
  cases hp : specState (next limit) free p with
  | none => simp [hp] at ho
  | some o1 =>
    have hi := hacc.next_of_specState hp
    have ho2 : ∃ o2, next limit o1 e = .ok o2 := by
      cases hn : next limit o1 e with
      | ok o2 => exact ⟨o2, rfl⟩
      | illegal => exact absurd hn hi
      | undefined => simp [hp, specState, hn] at ho
    obtain ⟨o2, hn⟩ := ho2
    have hth : o1.thrown = true := by
      cases e <;> simp only [Event.isAbort, Bool.false_eq_true] at hab <;> simp only [next, pre, must] at hn <;> (repeat' split at hn) <;> first | assumption | cases hn
    rcases (disturbed_hist hp).1 hth with h | ⟨t, op, h⟩
    · cases h
    · exact ⟨t, op, by simp [h]⟩

/-- **C10, partial.** If nobody waits for exclusive ownership, an undisturbed mutex answers a try request according to who owns it. -/
theorem try_exact_partial {threads limit : Nat} {ls : List Label} {s : State} {es : List Event} {o : Own} {t : Nat} (hl : 0 < limit) (h : run step (init threads limit) ls = some (s, es)) (ho : specState (next limit) free es = some o)
    (hd : o.disturbed = false) (hp : o.pending = []) (ht : t < threads) (hi : s.pc t = .idle) (hth : s.threads = threads) (halive : s.dead = false) :
    (∃ s', step s (.tryCall t .lock) = some (s', [.tried t .lock (o.writer.isNone && o.upgrader.isNone && o.readers.isEmpty)])) ∧
    (∃ s', step s (.tryCall t .shared) = some (s', [.tried t .shared (o.writer.isNone && decide (o.owners < limit))])) ∧
    (∃ s', step s (.tryCall t .upgrade) = some (s', [.tried t .upgrade (o.writer.isNone && o.upgrader.isNone && decide (o.owners < limit))])) := by
  obtain ⟨hw, hu, hn⟩ := counters_exact_partial hl h ho hd hp
  have hR := related hl h ho
  have hle := hR.nle
  rw [hR.lim] at hle
  have e1 : (!s.w && !s.u && s.n == 0) = (o.writer.isNone && o.upgrader.isNone && o.readers.isEmpty) := by
    rw [hw, hu, hn]
    cases o.writer <;> cases hx : o.upgrader <;> cases hr : o.readers <;> simp [Own.owners, hx, hr]
  have e2 : (s.n != s.limit) = decide (o.owners < limit) := by
    rw [hR.lim, hn]
    rw [Bool.eq_iff_iff]
    simp only [bne_iff_ne, ne_eq, decide_eq_true_eq]
    omega
  have e3 : (!s.w) = o.writer.isNone := by rw [hw]; cases o.writer <;> rfl
  have e4 : (!s.u) = o.upgrader.isNone := by rw [hu]; cases o.upgrader <;> rfl
  have hs : ∀ op : TryOp, op.asserts s = true → ∃ s', step s (.tryCall t op) = some (s', [.tried t op (op.ready s)]) := by
    intro op ha
    simp only [step, halive, Bool.false_eq_true, if_false]
    rw [if_pos ⟨by rw [hth]; exact ht, hi⟩, if_pos ha]
    split
    · rename_i hr; exact ⟨_, by rw [hr]⟩
    · rename_i hr; exact ⟨_, by rw [Bool.not_eq_true] at hr; rw [hr]⟩
  refine ⟨?_, ?_, ?_⟩
  · rw [← e1]; exact hs .lock rfl
  · rw [← e2, ← e3]; exact hs .shared rfl
  · rw [← e2, ← e3, ← e4]; exact hs .upgrade rfl

/-! ## C11 -/

def Inv (lim : Nat) (s : State) (h : List Event) : Prop := ∀ o, specState (next lim) free h = some o → Rel lim s o ∧ (clean lim free h = true → Awake s ∧ o.disturbed = false)

theorem inv_step {lim : Nat} {s s' : State} {l : Label} {h es : List Event} (hI : Inv lim s h) (hs : step s l = some (s', es)) : Inv lim s' (h ++ es) := by
  intro o' ho'
  rw [specState_append] at ho'
  cases hp : specState (next lim) free h with
  | none => simp [hp] at ho'
  | some o =>
    obtain ⟨hR, hA⟩ := hI o hp
    simp only [hp, Option.bind_some] at ho'
    obtain ⟨m, hm, hm2⟩ := (sim hR hs).specState_append (es' := []) (by simpa using ho')
    simp only [specState, Option.some.injEq] at hm2
    subst hm2
    refine ⟨hm, fun hc => ?_⟩
    obtain ⟨hc1, hc2⟩ := clean_append hc
    obtain ⟨hA, hd⟩ := hA hc1
    exact ⟨awake_step hR hd hA (hc2 o hp) ho' hs, clean_disturbed (hc2 o hp) ho' hd⟩

theorem awake_of_run {threads limit : Nat} {ls : List Label} {s : State} {es : List Event} {o : Own} (hl : 0 < limit) (h : run step (init threads limit) ls = some (s, es)) (ho : specState (next limit) free es = some o)
    (hc : clean limit free es = true) : Rel limit s o ∧ Awake s ∧ o.disturbed = false := by
  have h0 : Inv limit (init threads limit) [] := by
    intro o ho
    simp only [specState, Option.some.injEq] at ho
    subst ho
    exact ⟨rel_init threads hl, fun _ => ⟨awake_init threads limit, rfl⟩⟩
  have := run_inv_hist (Inv limit) (fun s l s' h es hI hs => inv_step hI hs) h0 h
  simp only [List.nil_append] at this
  obtain ⟨hR, hA⟩ := this o ho
  exact ⟨hR, hA hc⟩

/-- Does `t` sleep in a wait? -/
def State.sleeps (s : State) (t : Nat) : Prop := (s.pc t).asleep1 = true ∨ (s.pc t).asleep2 = true

/-- **C11, partial.** In a history in which no exclusive request that may keep others out is given up and in which there is always room for a reader, nobody sleeps without a reason:
* whoever waits for the readers to leave waits for a reader; so does everyone who waits because of an exclusive request;
* anybody else waits for the writer or the upgrade owner.
Missing: this is false if such a request times out (`lost_wakeup`) or is interrupted (`interrupted_writer_stays`), or if the readers reach the limit (`full_lost_wakeup`). -/
theorem no_lost_wakeup_partial {threads limit : Nat} {ls : List Label} {s : State} {es : List Event} {o : Own} (hl : 0 < limit) (h : run step (init threads limit) ls = some (s, es)) (ho : specState (next limit) free es = some o)
    (hc : clean limit free es = true) {t : Nat} (hsl : s.sleeps t) : o.writer.isSome ∨ o.upgrader.isSome ∨ (∃ x, x ∈ o.pending) ∧ o.readers ≠ [] ∨ ∃ x, x ∈ o.pending ∧ (s.pc x ≠ .idle ∧ ¬ s.sleeps x) := by
  obtain ⟨hR, hA, hd⟩ := awake_of_run hl h ho hc
  have gate2 : ∀ x op sv tm sl, s.pc x = .gate2 op sv tm sl → o.writer.isSome ∨ o.upgrader.isSome ∨ (∃ x, x ∈ o.pending) ∧ o.readers ≠ [] ∨ ∃ x, x ∈ o.pending ∧ (s.pc x ≠ .idle ∧ ¬ s.sleeps x) := by
    intro x op sv tm sl hp
    have hg := hR.g2 x op sv tm sl hp
    have ha := hg.at2
    cases sl with
    | asleep =>
      have hn := hA.g2 x op sv tm hp
      right; right; left
      refine ⟨⟨x, hg.pend⟩, ?_⟩
      intro he
      cases op <;> simp only [At2, he, List.length_nil] at ha
      · have := ha.2.2 hd; omega
      · cases ha.2.1
      · have := ha.2.2 hd; omega
    | awake => exact Or.inr (Or.inr (Or.inr ⟨x, hg.pend, by rw [hp]; simp, by simp [State.sleeps, hp, PC.asleep1, PC.asleep2]⟩))
    | expired => exact Or.inr (Or.inr (Or.inr ⟨x, hg.pend, by rw [hp]; simp, by simp [State.sleeps, hp, PC.asleep1, PC.asleep2]⟩))
  cases hp : s.pc t with
  | idle => simp [State.sleeps, hp, PC.asleep1, PC.asleep2] at hsl
  | gate2 op sv tm sl => exact gate2 t op sv tm sl hp
  | gate1 op tm sl =>
    have hs : sl = .asleep := by cases sl <;> simp [State.sleeps, hp, PC.asleep1, PC.asleep2] at hsl ⊢
    subst hs
    have hr := hA.g1 t op tm hp
    cases hw : s.w with
    | true =>
      rcases hR.cases hw with ⟨x, hx, -⟩ | ⟨x, op', sv, tm', sl, hx, -⟩ | ⟨hx, -⟩
      · left; rw [hx]; rfl
      · exact gate2 x op' sv tm' sl hx
      · simp [Own.disturbed, hx] at hd
    | false =>
      have hf := hR.fr hw
      right; left
      have hex := hf.exact hd
      have hlt := clean_owners (o := o) (es := []) (by have := (clean_append (es' := []) (by simpa using hc)).2 o ho; exact this)
      have hne : s.n ≠ s.limit := by rw [hR.lim]; omega
      rw [← hf.u]
      have hg := hR.g1 t op tm _ hp
      cases op <;> simp_all [Op.ready, State.noWriterNoUpgrader, State.noWriterNoMaxReaders, State.noWriterNoUpgraderNoMaxReaders, At1]

/-- **C11, partial.** When everything has been released and every thread is idle or asleep, nobody is asleep. -/
theorem quiescent_partial {threads limit : Nat} {ls : List Label} {s : State} {es : List Event} {o : Own} (hl : 0 < limit) (h : run step (init threads limit) ls = some (s, es)) (ho : specState (next limit) free es = some o)
    (hc : clean limit free es = true) (hfree : o.writer = none ∧ o.upgrader = none ∧ o.readers = []) (hq : ∀ t, s.pc t = .idle ∨ s.sleeps t) : ∀ t, s.pc t = .idle := by
  intro t
  refine (hq t).resolve_right fun hsl => ?_
  rcases no_lost_wakeup_partial hl h ho hc hsl with h1 | h1 | ⟨-, h1⟩ | ⟨x, -, h1, h2⟩
  · simp [hfree.1] at h1
  · simp [hfree.2.1] at h1
  · exact h1 hfree.2.2
  · rcases hq x with h | h
    · exact h1 h
    · exact h2 h

/-! ## Where the properties fail -/

/-- **C11 is false.** Thread 0 reads. Thread 1 asks for exclusive ownership with a deadline, thread 2 then wants to read and sleeps. Thread 1 gives up: nobody wakes thread 2. It sleeps on although only a reader owns the mutex. -/
theorem lost_wakeup : ∃ s es o, run step (init 3 5) [.call 0 .shared false, .call 1 .lock true, .call 2 .shared false, .timeout 1, .resume 1] = some (s, es) ∧ specState (next 5) free es = some o ∧
    s.sleeps 2 ∧ Op.shared.ready s = true ∧ s.pc 0 = .idle ∧ s.pc 1 = .idle ∧ o.writer = none ∧ o.upgrader = none ∧ o.pending = [] :=
  ⟨_, _, _, rfl, rfl, Or.inl (by decide), by decide, by decide, by decide, by decide, by decide, by decide⟩

/-- Thread 2 still sleeps when the mutex has been released by all. -/
theorem lost_wakeup_forever : ∃ s es o, run step (init 3 5) [.call 0 .shared false, .call 1 .lock true, .call 2 .shared false, .timeout 1, .resume 1, .down 0 .unlockShared none] = some (s, es) ∧ specState (next 5) free es = some o ∧
    s.sleeps 2 ∧ s.pc 0 = .idle ∧ s.pc 1 = .idle ∧ o.writer = none ∧ o.upgrader = none ∧ o.readers = [] ∧ o.pending = [] :=
  ⟨_, _, _, rfl, rfl, Or.inl (by decide), by decide, by decide, by decide, by decide, by decide, by decide⟩

/-- **C10 is false.** Threads 1 and 2 read, thread 0 is upgrade owner and asks for exclusive ownership with a deadline. Thread 1 leaves while it waits. When it gives up, thread 1 is counted again.
After all have left, there still is a reader in the count, and nobody will ever get exclusive ownership. -/
theorem phantom_readers : ∃ s es o, run step (init 3 5) [.call 0 .upgrade false, .call 1 .shared false, .call 2 .shared false, .call 0 .upgradeToExclusive true, .down 1 .unlockShared none, .timeout 0, .resume 0,
      .down 0 .unlockUpgrade none, .down 2 .unlockShared none, .tryCall 1 .lock] = some (s, es) ∧ specState (next 5) free es = some o ∧
    o.writer = none ∧ o.upgrader = none ∧ o.readers = [] ∧ o.pending = [] ∧ s.n = 1 ∧ es.getLast? = some (.tried 1 .lock false) :=
  ⟨_, _, _, rfl, rfl, by decide, by decide, by decide, by decide, by decide, by decide⟩

/-- An interrupted `lock` that waited for the readers to leave keeps everybody out for good. -/
theorem interrupted_writer_stays : ∃ s es o, run step (init 3 5) [.call 0 .shared false, .call 1 .lock false, .interrupt 1, .down 0 .unlockShared none, .tryCall 2 .shared] = some (s, es) ∧ specState (next 5) free es = some o ∧
    o.writer = none ∧ o.upgrader = none ∧ o.readers = [] ∧ o.pending = [] ∧ es.getLast? = some (.tried 2 .shared false) :=
  ⟨_, _, _, rfl, rfl, by decide, by decide, by decide, by decide, by decide⟩

/-- After an interrupted `unlock_upgrade_and_lock` the upgrade owner cannot release what it owns: an assertion fails. -/
theorem interrupted_conversion_aborts : ∃ s es o, run step (init 3 5) [.call 0 .upgrade false, .call 1 .shared false, .call 0 .upgradeToExclusive false, .interrupt 0, .down 0 .unlockUpgrade none] = some (s, es) ∧ specState (next 5) free es = some o ∧
    o.upgrader = some 0 ∧ es.getLast? = some (.downAborts 0 .unlockUpgrade) :=
  ⟨_, _, _, rfl, rfl, by decide, by decide⟩

/-- With the number of readers at its limit (here 2), a leaving reader wakes one thread on `gate1_`. That may be one that cannot go on, and the one that could sleeps on. -/
theorem full_lost_wakeup : ∃ s es, run step (init 4 2) [.call 0 .upgrade false, .call 1 .shared false, .call 2 .lock false, .call 3 .shared false, .down 1 .unlockShared (some 2), .resume 2] = some (s, es) ∧
    s.sleeps 3 ∧ Op.shared.ready s = true ∧ s.sleeps 2 ∧ s.pc 0 = .idle ∧ s.pc 1 = .idle :=
  ⟨_, _, rfl, Or.inl (by decide), by decide, Or.inl (by decide), by decide, by decide⟩

/-! ## The hypotheses can be met -/

def busy : List Label := [.call 0 .shared false, .call 1 .upgrade false, .call 2 .lock true, .call 1 .upgradeToExclusive true, .call 3 .shared false]

/-- A reader, an upgrade owner waiting for it, and others asleep. -/
example : ∃ s es o, run step (init 4 5) busy = some (s, es) ∧ specState (next 5) free es = some o ∧ clean 5 free es = true ∧ s.sleeps 1 ∧ s.sleeps 2 ∧ s.sleeps 3 ∧ o.pending = [1, 2] ∧ o.readers = [0] :=
  ⟨_, _, _, rfl, rfl, by decide, Or.inr (by decide), Or.inl (by decide), Or.inl (by decide), by decide, by decide⟩

/-- The reader leaves, the upgrade owner becomes writer and releases all; the others go on. -/
example : ∃ s es o, run step (init 4 5) (busy ++ [.down 0 .unlockShared (some 1), .resume 1, .down 1 .exclusiveToShared none, .resume 2, .down 1 .unlockShared (some 2), .resume 2, .down 2 .unlock none, .resume 3, .down 3 .unlockShared none]) = some (s, es) ∧
    specState (next 5) free es = some o ∧ clean 5 free es = true ∧ o.disturbed = false ∧ o.pending = [] ∧ o.writer = none ∧ o.upgrader = none ∧ o.readers = [] ∧ .granted 1 .upgradeToExclusive ∈ es ∧ .granted 2 .lock ∈ es ∧ .granted 3 .shared ∈ es :=
  ⟨_, _, _, rfl, rfl, by decide, by decide, by decide, by decide, by decide, by decide, by decide, by decide, by decide⟩

/-- A writer at work. -/
example : ∃ s es o, run step (init 4 5) [.call 0 .lock false, .call 1 .shared false] = some (s, es) ∧ specState (next 5) free es = some o ∧ o.writer = some 0 ∧ o.disturbed = false ∧ s.sleeps 1 :=
  ⟨_, _, _, rfl, rfl, by decide, by decide, Or.inl (by decide)⟩

/-- An abort after an interruption: the hypotheses of `no_abort_partial`. -/
example : ∃ s es o e, run step (init 3 5) [.call 0 .upgrade false, .call 1 .shared false, .call 0 .upgradeToExclusive false, .interrupt 0, .tryCall 0 .upgradeToExclusive] = some (s, es) ∧ specState (next 5) free es = some o ∧ e ∈ es ∧ e.isAbort = true :=
  ⟨_, _, _, .tryAborts 0 .upgradeToExclusive, rfl, rfl, by decide, by decide⟩

end Verif.V2Mutex
