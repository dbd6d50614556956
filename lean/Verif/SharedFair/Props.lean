import Verif.SharedFair.Spec
import Verif.SharedMutex.Props
/-!
# `shared_mutex`: waiting writers hold off new readers
-/

set_option linter.unusedSimpArgs false

namespace Verif.SharedFair
open SharedMutex

variable {b : Bool} {s s' : State} {g : Gate}

structure RG (b : Bool) (s : State) (g : Gate) : Prop where
  r : R b s g.own
  gate : g.waiting ≠ [] → s.data.exclusiveWaitingBlocked = true ∨ s.data.exclusive = true

/-- One event. -/
theorem one {e : Event} {P : Gate → Prop} {Q : Own → Prop} (hF : Follows specNext Q g.own [e]) (ha : admits e = true → g.waiting = [])
    (hP : ∀ o, Q o → P { own := o, waiting := if isFree o then [] else after false g.waiting e }) : Follows (next false) P g [e] := by
  simp only [Follows, next] at hF ⊢
  cases hn : specNext g.own e with
  | illegal => simp [hn] at hF
  | undefined => trivial
  | ok o =>
    simp only [hn] at hF ⊢
    have : ¬ (admits e && !g.waiting.isEmpty) = true := by
      simp only [Bool.and_eq_true, Bool.not_eq_true', not_and]
      intro h; simp [ha h]
    rw [if_neg this]
    exact hP o hF

theorem two {e e' : Event} {P : Gate → Prop} {Q : Own → Prop} (hF : Follows specNext Q g.own [e, e']) (ha : admits e = false) (hw : after false g.waiting e = g.waiting) (ha' : admits e' = true → g.waiting = [])
    (hP : ∀ o w, Q o → (w ≠ [] → g.waiting ≠ []) → P { own := o, waiting := if isFree o then [] else after false w e' }) : Follows (next false) P g [e, e'] := by
  simp only [Follows] at hF ⊢
  rw [next]
  cases hn : specNext g.own e with
  | illegal => simp [hn] at hF
  | undefined => trivial
  | ok o =>
    simp only [hn, ha, Bool.false_and, Bool.false_eq_true, ↓reduceIte, hw] at hF ⊢
    have hsub : (if isFree o = true then [] else g.waiting) ≠ [] → g.waiting ≠ [] := by split <;> simp
    refine one (g := { own := o, waiting := if isFree o = true then [] else g.waiting }) (Q := Q) (by simpa only [Follows] using hF) (fun h => ?_) (fun o' hq => hP o' _ hq hsub)
    have := ha' h
    by_cases hc : isFree o = true <;> simp [hc, this]

theorem call_gate {op : Op} {t : Nat} (h : RG b s g) (hr : op.ready (op.enter s.data) = true) (ha : admits (.granted t op) = true) : g.waiting = [] := by
  by_cases hw : g.waiting = []
  · exact hw
  · have := h.gate hw
    cases op <;> simp [admits, Op.ready, Op.enter, Data.canLockShared, Data.canLockUpgrade] at ha hr <;> rcases this with h | h <;> simp [h] at hr

/-- Granting closes nothing that was open, and opens nothing while there are owners. -/
theorem grant_gate {op : Op} {t : Nat} {d : Data} {w : List Nat} (hd : w ≠ [] → d.exclusiveWaitingBlocked = true ∨ d.exclusive = true) (hw : after false w (.granted t op) ≠ []) :
    (op.grant d).exclusiveWaitingBlocked = true ∨ (op.grant d).exclusive = true := by
  have hne : w ≠ [] := by
    rintro rfl
    cases op <;> simp [after] at hw
  have := hd hne
  cases op <;> simp [Op.grant, Data.incShared] <;> simpa using this

theorem enter_gate {op : Op} {d : Data} (hd : d.exclusiveWaitingBlocked = true ∨ d.exclusive = true) : (op.enter d).exclusiveWaitingBlocked = true ∨ (op.enter d).exclusive = true := by
  cases op <;> simp [Op.enter, Data.decShared] <;> simpa using hd

theorem free_of {d : Data} {o : Own} (h : DR d o) (h1 : d.noShared = true) (h2 : d.exclusive = false) (h3 : d.upgrade = false) : isFree o = true := by
  obtain ⟨he, hu, hc, hw, hv, -⟩ := h
  simp only [Data.noShared, beq_iff_eq] at h1
  simp only [h1, h2, h3] at he hu hc
  have hl : o.readers = [] := List.length_eq_zero_iff.mp (by omega)
  simp only [hl, List.isEmpty_nil, Bool.and_true] at he hu
  have he' := he.symm
  simp only [Bool.or_eq_false_iff] at he'
  simp only [he'.2, Bool.not_false, Bool.and_true] at hu
  simp [isFree, hl]
  constructor
  · cases hx : o.upgrader with
    | none => rfl
    | some x => rw [hx] at hu; cases hu
  · cases hx : o.writer with
    | none => rfl
    | some x => rw [hx] at he'; cases he'.1

theorem sim {l : Label} {es : List Event} (hl : Allowed b l) (h : RG b s g) (hs : step s l = some (s', es)) : Follows (next false) (RG b s') g es := by
  have hF := step_sim s l s' es g.own hl h.r hs
  cases l with
  | call t op tm =>
    simp only [step] at hs
    split at hs
    rotate_left
    · cases hs
    split at hs
    rotate_left
    · cases hs
    split at hs
    · rename_i hr
      cases hs
      have hg := call_gate (t := t) h hr
      have hd : ∀ w : List Nat, (w ≠ [] → g.waiting ≠ []) → after false w (.granted t op) ≠ [] → ((op.grant (op.enter s.data)).exclusiveWaitingBlocked = true ∨ (op.grant (op.enter s.data)).exclusive = true) :=
        fun w hw hne => grant_gate (fun hne => enter_gate (h.gate (hw hne))) hne
      have fin : ∀ (o : Own) (w : List Nat), R b { data := op.grant (op.enter s.data), ts := s.ts } o → (w ≠ [] → g.waiting ≠ []) →
          RG b { data := op.grant (op.enter s.data), ts := s.ts } { own := o, waiting := if isFree o then [] else after false w (.granted t op) } := fun o w hq hw => by
        refine ⟨hq, fun hne => ?_⟩
        by_cases hf : isFree o = true
        · simp [hf] at hne
        · simp only [hf, Bool.false_eq_true, ↓reduceIte] at hne
          exact hd w hw hne
      cases op <;> simp only [Op.callEvents, List.nil_append, List.cons_append] at hF ⊢
      case shared => exact one hF hg (fun o hq => fin o _ hq id)
      case upgrade => exact one hF hg (fun o hq => fin o _ hq id)
      case exclusive => exact one hF hg (fun o hq => fin o _ hq id)
      all_goals exact two hF rfl rfl hg (fun o w hq hw => fin o w hq hw)
    · cases hs
      have fin : ∀ (o : Own) (w : List Nat), R b { data := op.enter s.data, ts := s.ts.set t (.asleep op tm) } o → (w ≠ [] → g.waiting ≠ []) →
          RG b { data := op.enter s.data, ts := s.ts.set t (.asleep op tm) } { own := o, waiting := if isFree o then [] else after false w (.blocked t op) } := fun o w hq hw => by
        refine ⟨hq, fun hne => ?_⟩
        by_cases hf : isFree o = true
        · simp [hf] at hne
        · simp only [hf, Bool.false_eq_true, ↓reduceIte] at hne
          cases op
          case exclusive => simp [Op.enter]
          all_goals exact enter_gate (h.gate (hw hne))
      cases op <;> simp only [Op.callEvents, List.nil_append, List.cons_append] at hF ⊢
      case shared => exact one hF (by simp [admits]) (fun o hq => fin o _ hq id)
      case upgrade => exact one hF (by simp [admits]) (fun o hq => fin o _ hq id)
      case exclusive => exact one hF (by simp [admits]) (fun o hq => fin o _ hq id)
      all_goals exact two hF rfl rfl (by simp [admits]) (fun o w hq hw => fin o w hq hw)
  | tryCall t op =>
    simp only [step] at hs
    split at hs
    rotate_left
    · cases hs
    split at hs <;> cases hs
    · rename_i hr
      refine one hF (fun ha => ?_) (fun o hq => ⟨hq, fun hne => ?_⟩)
      · by_cases hw : g.waiting = []
        · exact hw
        · have := h.gate hw
          cases op <;> simp [admits, TryOp.ready, Data.canLockShared, Data.canLockUpgrade] at ha hr <;> rcases this with h | h <;> simp [h] at hr
      · by_cases hf : isFree o = true
        · simp [hf] at hne
        · simp only [hf, Bool.false_eq_true, ↓reduceIte, after] at hne
          have := h.gate hne
          cases op <;> simp [TryOp.grant, Data.incShared] <;> simpa using this
    · refine one hF (by cases op <;> simp [admits]) (fun o hq => ⟨hq, fun hne => ?_⟩)
      by_cases hf : isFree o = true
      · simp [hf] at hne
      · simp only [hf, Bool.false_eq_true, ↓reduceIte, after] at hne
        exact h.gate hne
  | unlock t m w v =>
    simp only [step] at hs
    split at hs
    rotate_left
    · cases hs
    have same : ∀ {o : Own}, (if isFree o = true then [] else after false g.waiting (.released t m)) ≠ [] → isFree o = false ∧ g.waiting ≠ [] := by
      intro o hne
      by_cases hf : isFree o = true
      · simp [hf] at hne
      · simp only [hf, Bool.false_eq_true, ↓reduceIte, after] at hne
        exact ⟨by simpa using hf, hne⟩
    unfold unlock at hs
    cases m with
    | exclusive =>
      simp only at hs
      split at hs <;> cases hs
      simp only [Follows, next] at hF ⊢
      cases hn : specNext g.own (.released t .exclusive) with
      | illegal => simp [hn] at hF
      | undefined => trivial
      | ok o =>
        simp only [hn, admits, Bool.false_and, Bool.false_eq_true, ↓reduceIte] at hF ⊢
        refine ⟨hF, fun hne => ?_⟩
        obtain ⟨hf, -⟩ := same hne
        exfalso
        simp only [specNext, pre] at hn
        split at hn <;> cases hn
        rename_i hw
        have := h.r.data.wr (by simp only [beq_iff_eq] at hw; simp [hw])
        simp [isFree, this.1, this.2] at hf
    | upgrade =>
      simp only at hs
      split at hs
      · rename_i hz
        split at hs <;> cases hs
        simp only [Follows, next] at hF ⊢
        cases hn : specNext g.own (.released t .upgrade) with
        | illegal => simp [hn] at hF
        | undefined => trivial
        | ok o =>
          simp only [hn, admits, Bool.false_and, Bool.false_eq_true, ↓reduceIte] at hF ⊢
          refine ⟨hF, fun hne => ?_⟩
          obtain ⟨hf, -⟩ := same hne
          cases hx : s.data.exclusive with
          | true => exact .inr (by simpa [Data.decShared] using hx)
          | false =>
            have := free_of hF.data (by simpa [Data.noShared] using hz) (by simpa [Data.decShared] using hx) rfl
            rw [this] at hf; cases hf
      · cases hs
        exact one hF (by simp [admits]) (fun o hq => ⟨hq, fun hne => by simpa [Data.decShared] using h.gate (same hne).2⟩)
    | shared =>
      simp only at hs
      split at hs
      · rename_i hz
        split at hs
        · split at hs
          · split at hs <;> cases hs
            exact one hF (by simp [admits]) (fun o hq => ⟨hq, fun hne => .inr rfl⟩)
          · cases hs
        · rename_i hu
          split at hs <;> cases hs
          refine one hF (by simp [admits]) (fun o hq => ⟨hq, fun hne => ?_⟩)
          obtain ⟨hf, -⟩ := same hne
          cases hx : s.data.exclusive with
          | true => exact .inr (by simpa [Data.decShared] using hx)
          | false =>
            have := free_of hq.data (by simpa [Data.noShared] using hz) (by simpa [Data.decShared] using hx) (by simpa using hu)
            rw [this] at hf; cases hf
      · cases hs
        exact one hF (by simp [admits]) (fun o hq => ⟨hq, fun hne => by simpa [Data.decShared] using h.gate (same hne).2⟩)
  | down t c w =>
    simp only [step] at hs
    split at hs
    rotate_left
    · cases hs
    unfold down at hs
    split at hs
    · cases hs
    · cases c <;> cases hs <;> exact one hF (by simp [admits]) (fun o hq => ⟨hq, fun hne => absurd (by simp [after]) hne⟩)
  | spurious t =>
    simp only [step] at hs
    split at hs <;> cases hs
    exact ⟨hF, h.gate⟩
  | timeout t =>
    simp only [step] at hs
    split at hs <;> cases hs
    exact ⟨hF, h.gate⟩
  | resume t w =>
    simp only [step] at hs
    have granted : ∀ {op : Op} {ts : List PC}, op.ready s.data = true → s' = { data := op.grant s.data, ts := ts } → es = [.granted t op] → Follows (next false) (RG b s') g es := by
      intro op ts hr he hes
      subst he hes
      refine one hF (fun ha => ?_) (fun o hq => ⟨hq, fun hne => ?_⟩)
      · by_cases hw : g.waiting = []
        · exact hw
        · have := h.gate hw
          cases op <;> simp [admits, Op.ready, Data.canLockShared, Data.canLockUpgrade] at ha hr <;> rcases this with h | h <;> simp [h] at hr
      · by_cases hf : isFree o = true
        · simp [hf] at hne
        · simp only [hf, Bool.false_eq_true, ↓reduceIte] at hne
          exact grant_gate h.gate hne
    split at hs
    · rename_i op tm _
      split at hs
      · rename_i hr; cases hs; exact granted hr rfl rfl
      · cases hs; exact ⟨hF, h.gate⟩
    · rename_i op _
      split at hs
      · rename_i hr; cases hs; exact granted hr rfl rfl
      · split at hs
        · rename_i he
          split at hs <;> cases hs
          subst he
          exact one hF (by simp [admits]) (fun o hq => ⟨hq, fun hne => absurd (by simp [after]) hne⟩)
        · rename_i he
          cases hs
          refine one hF (by simp [admits]) (fun o hq => ⟨hq, fun hne => ?_⟩)
          by_cases hf : isFree o = true
          · simp [hf] at hne
          · simp only [hf, Bool.false_eq_true, ↓reduceIte] at hne
            refine h.gate ?_
            cases op <;> simp [after] at hne he ⊢ <;> exact hne
    · cases hs

/-- While a writer waits, and as long as the mutex has not been free in the meantime, nobody is given shared or upgrade ownership.

Partial: the gate is opened also when a timed `lock` gives up, or an upgrade owner becomes a shared owner, although other writers wait: see `starved_by_timeout`, `starved_by_downgrade`. (And, as for
C07, schedules do not use both `try_unlock_shared_and_lock_for/until` and `unlock_upgrade_and_lock`.) -/
theorem conforms_partial (n : Nat) (ls : List Label) (s : State) (es : List Event) (hu : ¬ (uses .timedSharedToExclusive ls ∧ uses .upgradeToExclusive ls))
    (h : run step (init n) ls = some (s, es)) : Accepts (next false) {} es := by
  obtain ⟨b, hb⟩ := allowed_of_not_uses hu
  exact simulation_on (Allowed b) (RG b) (fun s l s' es g hl hR hs => sim hl hR hs) hb ⟨R_init b n, fun h => absurd rfl h⟩ h

/-! ## The theorem speaks about something -/

/-- Two readers; a writer comes and waits; a third reader, although the mutex is shared, is held off, and so is an attempt; the readers leave, the writer gets in, and after it the reader. -/
def prog : List Label :=
  [.call 0 .shared false, .call 1 .shared false, .call 2 .exclusive false, .call 3 .shared false, .tryCall 4 .shared, .unlock 0 .shared none none, .tryCall 4 .upgrade,
   .unlock 1 .shared (some 2) none, .resume 2 none, .resume 3 none, .unlock 2 .exclusive none none, .resume 3 none, .unlock 3 .shared none none]

def events : List Event :=
  [.granted 0 .shared, .granted 1 .shared, .blocked 2 .exclusive, .blocked 3 .shared, .tried 4 .shared false, .released 0 .shared, .tried 4 .upgrade false,
   .released 1 .shared, .granted 2 .exclusive, .released 2 .exclusive, .granted 3 .shared, .released 3 .shared]

example : (run step (init 5) prog).map (·.2) = some events := by decide +kernel
example : ClientOk (next true) {} events := by decide +kernel
example : (specState (next true) {} (events.take 7)).map (·.waiting) = some [2] := by decide +kernel
example : ¬ (uses .timedSharedToExclusive prog ∧ uses .upgradeToExclusive prog) := by
  rintro ⟨⟨t, tm, h⟩, -⟩
  simp [prog] at h

/-! ## Writers can be starved -/

/-- Threads 0 and 3 take turns as readers, so that the mutex is never free. -/
def turns : List Label := [.call 3 .shared false, .unlock 0 .shared none none, .call 0 .shared false, .unlock 3 .shared none none]
def turnsEvents : List Event := [.granted 3 .shared, .released 0 .shared, .granted 0 .shared, .released 3 .shared]

/-- Thread 0 is the only owner, a reader; thread 1 waits for exclusive ownership, but the gate is open. -/
def starving : State := { data := { sharedCount := 1, exclusive := false, upgrade := false, exclusiveWaitingBlocked := false }, ts := [.idle, .asleep .exclusive false, .idle, .idle] }

theorem turns_again : run step starving turns = some (starving, turnsEvents) := by decide +kernel

theorem turns_forever (n : Nat) : run step starving (List.replicate n turns).flatten = some (starving, (List.replicate n turnsEvents).flatten) := by
  induction n with
  | zero => rfl
  | succ n ih => simp only [List.replicate_succ, List.flatten_cons]; exact run_append turns_again ih

/-- Thread 1 waits in `lock()`. Thread 2, in a timed `lock`, gives up; that opens the gate for readers although thread 1 still waits. From then on readers come and go without end and thread 1 never
gets the mutex: for every `n` there is such a schedule with `2 n` new readers. -/
theorem starved_by_timeout (n : Nat) : ∃ ls s es, run step (init 4) ls = some (s, es) ∧
    es = [.granted 0 .shared, .blocked 1 .exclusive, .blocked 2 .exclusive, .timedOut 2 .exclusive] ++ (List.replicate n turnsEvents).flatten ∧ s.ts[1]? = some (.asleep .exclusive false) ∧
    (0 < n → ¬ Accepts (next true) {} es) := by
  refine ⟨[.call 0 .shared false, .call 1 .exclusive false, .call 2 .exclusive true, .timeout 2, .resume 2 (some 1), .resume 1 none] ++ (List.replicate n turns).flatten, starving, _,
    run_append (m := starving) (es := [.granted 0 .shared, .blocked 1 .exclusive, .blocked 2 .exclusive, .timedOut 2 .exclusive]) (by decide +kernel) (turns_forever n), rfl, rfl, fun hn ha => ?_⟩
  obtain ⟨k, rfl⟩ : ∃ k, n = k + 1 := ⟨n - 1, by omega⟩
  rw [List.replicate_succ, List.flatten_cons, ← List.append_assoc] at ha
  exact absurd ha.prefix (by decide +kernel)

/-- The same if an upgrade owner becomes a shared owner by `unlock_upgrade_and_lock_shared` while thread 1 waits. -/
theorem starved_by_downgrade (n : Nat) : ∃ ls s es, run step (init 4) ls = some (s, es) ∧
    es = [.granted 0 .upgrade, .blocked 1 .exclusive, .downgraded 0 .upgradeToShared] ++ (List.replicate n turnsEvents).flatten ∧ s.ts[1]? = some (.asleep .exclusive false) ∧
    (0 < n → ¬ Accepts (next true) {} es) := by
  refine ⟨[.call 0 .upgrade false, .call 1 .exclusive false, .down 0 .upgradeToShared (some 1), .resume 1 none] ++ (List.replicate n turns).flatten, starving, _,
    run_append (m := starving) (es := [.granted 0 .upgrade, .blocked 1 .exclusive, .downgraded 0 .upgradeToShared]) (by decide +kernel) (turns_forever n), rfl, rfl, fun hn ha => ?_⟩
  obtain ⟨k, rfl⟩ : ∃ k, n = k + 1 := ⟨n - 1, by omega⟩
  rw [List.replicate_succ, List.flatten_cons, ← List.append_assoc] at ha
  exact absurd ha.prefix (by decide +kernel)

/-! ## The specification rejects -/

example : ¬ Accepts (next false) {} [.granted 0 .shared, .blocked 1 .exclusive, .granted 2 .shared] := by decide +kernel
example : ¬ Accepts (next false) {} [.granted 0 .shared, .blocked 1 .exclusive, .tried 2 .upgrade true] := by decide +kernel
example : ¬ Accepts (next false) {} [.granted 0 .shared, .granted 3 .shared, .blocked 1 .exclusive, .released 0 .shared, .granted 2 .shared] := by decide +kernel
example : Accepts (next true) {} [.granted 0 .shared, .blocked 1 .exclusive, .released 0 .shared, .granted 2 .shared] := by decide +kernel

end Verif.SharedFair
