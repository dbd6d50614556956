import Verif.WinSharedFair.Spec
import Verif.WinSharedMutex.Props
/-!
# C76: a waiting writer holds off new readers of a shared mutex on Windows
-/

namespace Verif.WinSharedFair
open WinSharedMutex
set_option linter.unusedSimpArgs false

/-- How the writers that wait show in the state of `WinSharedMutex`. -/
structure G (g : Gate) : Prop where
  asked : g.waiting ≠ [] → g.own.asked = true
  count : g.waiting.length ≤ g.own.exclWaits
  free : g.own.owned = false → g.waiting = []
  excl : g.own.Exclusive

theorem G.nobody {o : Own} (he : o.Exclusive) (b : Bool) {w : List Nat} (h : b = true → w = []) : G { own := o, waiting := if b then w else [] } := by
  have : (if b then w else []) = ([] : List Nat) := by
    split
    · next hb => exact h hb
    · rfl
  rw [this]
  exact ⟨fun h => absurd rfl h, Nat.zero_le _, fun _ => rfl, he⟩

theorem G.keep {g : Gate} {o : Own} (h : G g) (h1 : o.asked = g.own.asked) (h2 : o.exclWaits = g.own.exclWaits) (he : o.Exclusive) :
    G { own := o, waiting := if o.owned then g.waiting else [] } := by
  cases ho : o.owned with
  | false => exact G.nobody he false (by simp)
  | true => exact ⟨fun hw => h1.trans (h.asked hw), by rw [h2]; exact h.count, fun hf => by simp [ho] at hf, he⟩

theorem must_ok {b : Bool} {o o' : Own} (h : must b o = .ok o') : b = true ∧ o' = o := by
  unfold must at h
  split at h
  · next hb => cases h; exact ⟨hb, rfl⟩
  · cases h

theorem pre_ok {b : Bool} {v : Verdict Own} {o' : Own} (h : pre b v = .ok o') : b = true ∧ v = .ok o' := by
  unfold pre at h
  split at h
  · next hb => exact ⟨hb, h⟩
  · cases h

theorem G.next {g : Gate} {e : Event} {o : Own} (h : G g) (hn : WinSharedMutex.next g.own e = .ok o) :
    (admits e && !g.waiting.isEmpty) = false ∧ G { own := o, waiting := if o.owned then after false g.waiting e else [] } := by
  have gate : g.own.asked = false → g.waiting = [] := fun ha => by
    by_cases hw : g.waiting = []
    · exact hw
    · rw [h.asked hw] at ha; cases ha
  have he := h.excl
  cases e with
  | blocked t r =>
    refine ⟨rfl, ?_⟩
    cases r with
    | lock =>
      obtain ⟨ho, rfl⟩ := must_ok hn
      have : ({ g.own with exclWaits := g.own.exclWaits + 1, asked := true } : Own).owned = true := ho
      rw [this]
      exact ⟨fun _ => rfl, by simpa [after] using h.count, fun hf => (by rw [this] at hf; cases hf), he⟩
    | shared => obtain ⟨-, rfl⟩ := must_ok hn; exact h.keep rfl rfl he
    | upgrade => obtain ⟨-, rfl⟩ := must_ok hn; exact h.keep rfl rfl he
    | upgradeToExclusive => obtain ⟨-, hn⟩ := pre_ok hn; obtain ⟨-, rfl⟩ := must_ok hn; exact h.keep rfl rfl he
  | granted t r =>
    cases r with
    | lock =>
      obtain ⟨ho, rfl⟩ := must_ok hn
      simp at ho
      have hw := h.free ho
      refine ⟨rfl, G.nobody ?_ _ (fun _ => by simp [after, hw])⟩
      intro _
      simp [Own.owned] at ho
      exact ⟨ho.2, ho.1.2⟩
    | shared =>
      obtain ⟨ho, rfl⟩ := must_ok hn
      simp [Own.writing] at ho
      have hw := gate ho.1.2
      refine ⟨by simp [hw], G.nobody ?_ _ (fun _ => by simp [after, hw])⟩
      intro hx; simp [ho.1.1.1] at hx
    | upgrade =>
      obtain ⟨ho, rfl⟩ := must_ok hn
      simp [Own.writing] at ho
      have hw := gate ho.1.1.2
      refine ⟨by simp [hw], G.nobody ?_ _ (fun _ => by simp [after, hw])⟩
      intro hx; simp [ho.1.1.1.1] at hx
    | upgradeToExclusive =>
      obtain ⟨-, hn⟩ := pre_ok hn
      obtain ⟨ho, rfl⟩ := must_ok hn
      simp at ho
      exact ⟨rfl, h.keep rfl rfl (fun _ => ⟨ho.2, rfl⟩)⟩
  | refused t r => obtain ⟨-, rfl⟩ := must_ok hn; exact ⟨rfl, h.keep rfl rfl he⟩
  | timedOut t r =>
    refine ⟨rfl, ?_⟩
    cases r with
    | lock =>
      obtain ⟨ho, rfl⟩ := must_ok hn
      by_cases ht : t ∈ g.waiting
      · have hl : (g.waiting.erase t).length = g.waiting.length - 1 := List.length_erase_of_mem ht
        have hc := h.count
        have : ({ g.own with exclWaits := g.own.exclWaits - 1, asked := g.own.asked && 1 < g.own.exclWaits } : Own).owned = true := ho
        rw [this]
        refine ⟨fun hw => ?_, ?_, fun hf => ?_, he⟩
        · simp only [after, Bool.false_or, List.contains_iff_mem, ht, if_true] at hw
          have h0 : (g.waiting.erase t).length ≠ 0 := by
            intro e0; rw [List.length_eq_zero_iff.1 e0] at hw; exact hw rfl
          have ha := h.asked (fun e0 => by simp [e0] at ht)
          simp [ha]
          omega
        · simp [after, ht]; omega
        · rw [this] at hf; cases hf
      · exact G.nobody (o := { g.own with exclWaits := g.own.exclWaits - 1, asked := g.own.asked && 1 < g.own.exclWaits }) he _ (fun _ => by simp [after, ht])
    | shared => obtain ⟨-, rfl⟩ := must_ok hn; exact h.keep rfl rfl he
    | upgrade => obtain ⟨-, rfl⟩ := must_ok hn; exact h.keep rfl rfl he
    | upgradeToExclusive => obtain ⟨-, rfl⟩ := must_ok hn; exact h.keep rfl rfl he
  | error t r =>
    refine ⟨rfl, ?_⟩
    cases r with
    | lock => obtain ⟨-, rfl⟩ := must_ok hn; exact h.keep rfl rfl he
    | shared => obtain ⟨-, rfl⟩ := must_ok hn; exact h.keep rfl rfl he
    | upgrade => obtain ⟨-, rfl⟩ := must_ok hn; exact h.keep rfl rfl he
    | upgradeToExclusive => cases hn
  | down t d =>
    refine ⟨rfl, ?_⟩
    cases d with
    | unlock =>
      obtain ⟨hp, hn⟩ := pre_ok hn; cases hn
      simp at hp
      obtain ⟨h1, h2⟩ := he (by simp [hp])
      exact G.nobody (fun hx => by simp [Own.letGo] at hx) _ (fun hb => by simp [Own.owned, Own.letGo, h1, h2] at hb)
    | unlockShared =>
      obtain ⟨hp, hn⟩ := pre_ok hn; cases hn
      simp at hp
      have hwn : g.own.writer = none := by
        cases hx : g.own.writer with
        | none => rfl
        | some x => have := (he (by simp [hx])).1; simp [this] at hp
      by_cases hc : ((g.own.readers.erase t).isEmpty && g.own.upgrader.isNone) = true
      · simp only [hc, if_true]
        simp at hc
        exact G.nobody (fun hx => by simp [Own.letGo, hwn] at hx) _ (fun hb => by simp [Own.owned, Own.letGo, hwn, hc.2] at hb)
      · simp only [hc, if_false]
        exact h.keep rfl rfl (fun hx => by simp [hwn] at hx)
    | unlockUpgrade =>
      obtain ⟨hp, hn⟩ := pre_ok hn; cases hn
      simp at hp
      have hwn : g.own.writer = none := by
        cases hx : g.own.writer with
        | none => rfl
        | some x => have := (he (by simp [hx])).2; simp [this] at hp
      by_cases hc : g.own.readers.isEmpty = true
      · simp only [hc, if_true]
        simp at hc
        exact G.nobody (fun hx => by simp [Own.letGo, hwn] at hx) _ (fun hb => by simp [Own.owned, Own.letGo, hwn, hc] at hb)
      · simp only [hc, if_false]
        exact h.keep rfl rfl (fun hx => by simp [hwn] at hx)
    | exclusiveToUpgrade =>
      obtain ⟨hp, hn⟩ := pre_ok hn; cases hn
      exact G.nobody (fun hx => by simp [Own.letGo] at hx) _ (fun _ => rfl)
    | exclusiveToShared =>
      obtain ⟨hp, hn⟩ := pre_ok hn; cases hn
      exact G.nobody (fun hx => by simp [Own.letGo] at hx) _ (fun _ => rfl)
    | upgradeToShared =>
      obtain ⟨hp, hn⟩ := pre_ok hn; cases hn
      simp at hp
      refine G.nobody (fun hx => ?_) _ (fun _ => rfl)
      have := (he hx).2
      simp [this] at hp

theorem accepts {es : List Event} {g : Gate} (h : G g) (ha : Accepts WinSharedMutex.next g.own es) : Accepts (next false) g es := by
  induction es generalizing g with
  | nil => trivial
  | cons e es ih =>
    simp only [Accepts, WinSharedFair.next] at ha ⊢
    cases hn : WinSharedMutex.next g.own e with
    | undefined => simp [hn]
    | illegal => simp [hn] at ha
    | ok o =>
      simp only [hn] at ha ⊢
      obtain ⟨h1, h2⟩ := h.next hn
      simp only [h1]
      exact ih h2 ha

/-- While a writer waits, and as long as the mutex has not been free in the meantime, nobody is given shared or upgrade ownership.

Partial: the gate is opened also when a writer gives up that had been waiting since before the mutex was last free, or an upgrade owner becomes a shared owner, although other writers wait: see
`starved_by_timeout`, `passed_by_downgrade`. -/
theorem conforms_partial {threads : Nat} {ls : List Label} {s : State} {es : List Event} (h : run step (init threads) ls = some (s, es)) : Accepts (next false) {} es :=
  accepts ⟨fun h => absurd rfl h, Nat.le_refl _, fun _ => rfl, fun h => by cases h⟩ (history_conforms h)

/-! ## The theorem speaks about something -/

/-- A call that goes through at the first attempt. -/
def thru (t : Nat) (c : Code) : List Label := [.call t c, .load t, .cas t]
/-- The same with nothing, or with two tokens, to release. -/
def quiet (t : Nat) (c : Code) : List Label := thru t c ++ [.release t]
def loud (t : Nat) (c : Code) : List Label := thru t c ++ [.release t, .release t, .release t]

/-- Two readers; a writer comes and waits; a third reader is held off, and so is an attempt; the readers leave, the writer gets in, and after it the reader. -/
def prog : List Label :=
  thru 0 (.shared false) ++ thru 1 (.shared false) ++ thru 2 (.lock false) ++ thru 3 (.shared false) ++ thru 4 .tryShared ++ quiet 0 .unlockShared ++ [.call 4 .tryUpgrade, .load 4] ++ loud 1 .unlockShared ++
  [.wake 2, .load 2, .cas 2] ++ quiet 2 .unlock ++ [.wake 3, .load 3, .cas 3] ++ quiet 3 .unlockShared

def events : List Event :=
  [.granted 0 .shared, .granted 1 .shared, .blocked 2 .lock, .blocked 3 .shared, .refused 4 .shared, .down 0 .unlockShared, .refused 4 .upgrade, .down 1 .unlockShared, .granted 2 .lock, .down 2 .unlock,
   .granted 3 .shared, .down 3 .unlockShared]

example : (run step (init 5) prog).map (·.2) = some events := by decide +kernel
example : ClientOk (next true) {} events := by decide +kernel
example : (specState (next true) {} (events.take 7)).map (·.waiting) = some [2] := by decide +kernel

/-! ## What is false -/

/-- An upgrade owner becomes a shared owner; a new reader is admitted although thread 1 has been waiting for the mutex. (Thread 1 has been woken, and closes the gate again when it gets to run.) -/
theorem passed_by_downgrade : ∃ ls s es, run step (init 3) ls = some (s, es) ∧ es = [.granted 0 .upgrade, .blocked 1 .lock, .down 0 .upgradeToShared, .granted 2 .shared] ∧ ¬ Accepts (next true) {} es :=
  ⟨thru 0 .upgrade ++ thru 1 (.lock false) ++ loud 0 .upgradeToShared ++ thru 2 (.shared false), _, _, rfl, by decide +kernel, by decide +kernel⟩

/-- Threads 0 and 3 take turns as readers, so that the mutex is never free. -/
def turns : List Label := thru 3 (.shared false) ++ quiet 0 .unlockShared ++ thru 0 (.shared false) ++ quiet 3 .unlockShared
def turnsEvents : List Event := [.granted 3 .shared, .down 0 .unlockShared, .granted 0 .shared, .down 3 .unlockShared]

/-- Thread 0 is the only owner, a reader; thread 1 waits for exclusive ownership, but the gate is open, and there is no token for it in `unlock_sem`. -/
structure Starving (s : State) : Prop where
  threads : s.threads = 5
  word : s.word = ⟨1, 2, false, false, 0, false⟩
  un : s.un = 0
  p0 : s.pc 0 = .idle
  p1 : ∃ old, s.pc 1 = .waiting (.lock false) old
  p3 : s.pc 3 = .idle

/-- A call that is not blocked: the word becomes `new`, and only the calling thread has moved. -/
theorem run_thru {s : State} {t : Nat} {r : Req} {new : Word} {c : Code} (ht : t < s.threads) (hp : s.pc t = .idle) (hc : c.callable = true) (hw : plan s.word c = .cas new (.granted r)) :
    ∃ pc, run step s (thru t c) = some ({ s with word := new, pc := pc }, [.granted t r]) ∧ pc t = .idle ∧ ∀ u, u ≠ t → pc u = s.pc u := by
  refine ⟨upd (upd (upd s.pc t (.start c)) t (.loop c s.word)) t .idle, ?_, by simp [upd], fun u hu => by simp [upd, hu]⟩
  simp [thru, run, step, ht, hp, hc, State.decide, hw, State.commit, upd]

theorem run_quiet {s : State} {t : Nat} {d : Down} {new : Word} {c : Code} (ht : t < s.threads) (hp : s.pc t = .idle) (hc : c.callable = true) (hw : plan s.word c = .cas new (.down d 0 0 0)) :
    ∃ pc, run step s (quiet t c) = some ({ s with word := new, pc := pc }, [.down t d]) ∧ pc t = .idle ∧ ∀ u, u ≠ t → pc u = s.pc u := by
  refine ⟨upd (upd (upd (upd s.pc t (.start c)) t (.loop c s.word)) t (.releasing 0 0 0 none)) t .idle, ?_, by simp [upd], fun u hu => by simp [upd, hu]⟩
  simp [quiet, thru, run, step, ht, hp, hc, State.decide, hw, State.commit, upd]

theorem turns_again {s : State} (h : Starving s) : ∃ s', run step s turns = some (s', turnsEvents) ∧ Starving s' := by
  obtain ⟨threads, word, ex, un, up, pc⟩ := s
  obtain ⟨rfl, rfl, rfl, h0, ⟨old, h1⟩, h3⟩ := h
  simp only at h0 h1 h3
  have up1 : plan ⟨1, 2, false, false, 0, false⟩ (.shared false) = .cas ⟨2, 2, false, false, 0, false⟩ (.granted .shared) := by decide +kernel
  have down2 : plan ⟨2, 2, false, false, 0, false⟩ .unlockShared = .cas ⟨1, 2, false, false, 0, false⟩ (.down .unlockShared 0 0 0) := by decide +kernel
  have l3 : 3 < 5 := by decide
  have l0 : 0 < 5 := by decide
  obtain ⟨q1, r1, a1, b1⟩ := run_thru (s := ⟨5, ⟨1, 2, false, false, 0, false⟩, ex, 0, up, pc⟩) (t := 3) (c := .shared false) l3 h3 rfl up1
  obtain ⟨q2, r2, a2, b2⟩ := run_quiet (s := ⟨5, ⟨2, 2, false, false, 0, false⟩, ex, 0, up, q1⟩) (t := 0) (c := .unlockShared) l0 ((b1 0 (by decide)).trans h0) rfl down2
  obtain ⟨q3, r3, a3, b3⟩ := run_thru (s := ⟨5, ⟨1, 2, false, false, 0, false⟩, ex, 0, up, q2⟩) (t := 0) (c := .shared false) l0 a2 rfl up1
  obtain ⟨q4, r4, a4, b4⟩ := run_quiet (s := ⟨5, ⟨2, 2, false, false, 0, false⟩, ex, 0, up, q3⟩) (t := 3) (c := .unlockShared) l3
    ((b3 3 (by decide)).trans ((b2 3 (by decide)).trans a1)) rfl down2
  refine ⟨_, run_append (run_append (run_append r1 r2) r3) r4, rfl, rfl, rfl, (b4 0 (by decide)).trans a3, ⟨old, ?_⟩, a4⟩
  exact (b4 1 (by decide)).trans ((b3 1 (by decide)).trans ((b2 1 (by decide)).trans ((b1 1 (by decide)).trans h1)))

theorem turns_forever {s : State} (h : Starving s) : ∀ n, ∃ s', run step s (List.replicate n turns).flatten = some (s', (List.replicate n turnsEvents).flatten) ∧ Starving s'
  | 0 => ⟨s, rfl, h⟩
  | n + 1 => by
    obtain ⟨m, hm, gm⟩ := turns_again h
    obtain ⟨s', hs', gs⟩ := turns_forever gm n
    exact ⟨s', run_append hm hs', gs⟩

/-- How it comes to that: the mutex becomes free while thread 2 waits with a deadline, and is taken again by a reader before thread 2 runs; thread 1 begins to wait and closes the gate; the reader 4 eats the
token of `unlock_sem` that was for thread 2; thread 2 times out, takes itself off the count although thread 1 is the only one counted, and opens the gate; reader 4 gets in with the token released with that. -/
def starve : List Label :=
  thru 0 (.shared false) ++ thru 2 (.lock true) ++ loud 0 .unlockShared ++ thru 0 (.shared false) ++ thru 1 (.lock false) ++ thru 4 (.shared false) ++ [.wake 4, .load 4, .cas 4] ++
  [.timeout 2, .cas 2, .cas 2, .release 2, .release 2] ++ [.wake 4, .load 4, .cas 4] ++ quiet 4 .unlockShared

def starveEvents : List Event :=
  [.granted 0 .shared, .blocked 2 .lock, .down 0 .unlockShared, .granted 0 .shared, .blocked 1 .lock, .blocked 4 .shared, .blocked 4 .shared, .timedOut 2 .lock, .granted 4 .shared, .down 4 .unlockShared]

theorem run_starve : ∃ s, run step (init 5) starve = some (s, starveEvents) ∧ Starving s :=
  ⟨_, rfl, rfl, rfl, rfl, rfl, ⟨_, rfl⟩, rfl⟩

/-- The time-out of one writer opens the gate for good although another writer waits: that writer is never let in, nor woken, however many readers come and go after that, each of them a new arrival. -/
theorem starved_by_timeout (n : Nat) :
    ∃ s, run step (init 5) (starve ++ (List.replicate n turns).flatten) = some (s, starveEvents ++ (List.replicate n turnsEvents).flatten) ∧ step s (.wake 1) = none ∧
      ¬ Accepts (next true) {} (starveEvents ++ (List.replicate n turnsEvents).flatten) := by
  obtain ⟨m, hm, gm⟩ := run_starve
  obtain ⟨s, hs, gs⟩ := turns_forever gm n
  refine ⟨s, run_append hm hs, ?_, fun h => absurd h.prefix (by decide +kernel)⟩
  obtain ⟨old, h1⟩ := gs.p1
  simp [step, h1, gs.un]

/-- The weaker specification does reject: a reader is let in past a waiting writer. -/
example : ¬ Accepts (next false) {} [.granted 0 .shared, .blocked 1 .lock, .granted 2 .shared] := by decide +kernel
example : ¬ Accepts (next false) {} [.granted 0 .upgrade, .blocked 1 .lock, .blocked 3 .lock, .timedOut 3 .lock, .granted 2 .shared] := by decide +kernel
/-- … and allows it once nobody waits any more. -/
example : Accepts (next false) {} [.granted 0 .shared, .blocked 1 .lock, .timedOut 1 .lock, .granted 2 .shared] := by decide +kernel

end Verif.WinSharedFair
