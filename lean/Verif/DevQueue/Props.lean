import Verif.DevQueue.Sim
import Verif.SyncQueue.Props
/-! # Properties of `sync_queue` and `sync_deque` with their default container -/

set_option linter.unusedSectionVars false
set_option linter.unusedSimpArgs false

namespace Verif.DevQueue
open SyncQueue (PC Kind Status Event Label Queue specNext fifo)
variable {V : Type} [DecidableEq V]

/-- **C25, C62.** Every history of a `sync_queue` or `sync_deque`, with any number of producers and consumers and any interleaving, is a history of a FIFO queue, up to the first
`underlying_queue()` that is called when an element has been pulled since the queue was last empty; that call, too, returns the elements in the queue in their order.

Partial: after such a call the queue is out of order; see `broken_by_underlying_queue`. -/
theorem conforms_partial (n : Nat) (ls : List (Label V)) (s : State V) (es : List (Event V)) (h : run step (init V n) ls = some (s, es)) : Accepts next (Spec.new V) es :=
  simulation Rel (fun _ _ _ _ _ hR hs => sim hR hs) (rel_init n) h

theorem rel_of {n : Nat} {ls : List (Label V)} {s : State V} {es : List (Event V)} {σ : Spec V} (h : run step (init V n) ls = some (s, es)) (hσ : specState next (Spec.new V) es = some σ) :
    Rel s σ :=
  simulation_state Rel (fun _ _ _ _ _ hR hs => sim hR hs) (rel_init n) h hσ

/-- Consumers 1 and 2 block, producer 0 pushes three times, consumer 1 gets the first element, consumer 2 the second, the third is pulled by 3; then the queue is filled again and its
contents are taken. -/
def demo : List (Label Nat) :=
  [.pull 1 .throwing 0, .pull 2 .timed 0, .push 0 7, .push 0 5, .push 0 6, .resume 1 0, .size 0, .timeout 2, .resume 2 0, .tryPull 3 0, .empty 0, .push 0 1, .push 0 2, .take 3, .tryPull 1 0,
   .push 0 3, .close 0, .closeNotify 0, .tryPull 2 0, .tryPull 2 0]

example : (run step (init Nat 4) demo).map Prod.snd = some
    [.pushed 0 7 .success, .pushed 0 5 .success, .pushed 0 6 .success, .pulled 1 7, .sizeIs 0 2, .pulled 2 5, .pulled 3 6, .emptyIs 0 true, .pushed 0 1 .success, .pushed 0 2 .success,
     .taken 3 [1, 2], .noPull 1 .empty, .pushed 0 3 .success, .closed 0, .closeReturned 0, .pulled 2 3, .noPull 2 .closed] := by decide +kernel

/-- **C62.** As long as `underlying_queue()` is called only when no element has been pulled since the queue was last empty, no call reads the container out of range. -/
theorem no_undefined_behaviour (n : Nat) (ls : List (Label V)) (s : State V) (es : List (Event V)) (h : run step (init V n) ls = some (s, es)) (hc : ClientOk next (Spec.new V) es) : s.ub = false := by
  obtain ⟨σ, hσ⟩ := (conforms_partial n ls s es h).specState_isSome hc
  exact (rel_of h hσ).ub

example : ∃ s es, run step (init Nat 4) demo = some (s, es) ∧ ClientOk next (Spec.new Nat) es ∧ s.ub = false := by
  refine ⟨_, _, rfl, ?_, rfl⟩
  decide +kernel

/-! ## No lost wake-up, closing -/

theorem wake_of {n : Nat} {ls : List (Label V)} {s : State V} {es : List (Event V)} {σ : Spec V} (h : run step (init V n) ls = some (s, es)) (hσ : specState next (Spec.new V) es = some σ) :
    SyncQueue.WakeInv (abs s) := by
  have : ∀ (ls : List (Label V)) (s s' : State V) (σ σ' : Spec V) (es : List (Event V)), Rel s σ → SyncQueue.WakeInv (abs s) → run step s ls = some (s', es) → specState next σ es = some σ' →
      SyncQueue.WakeInv (abs s') := by
    intro ls
    induction ls with
    | nil => intro s s' σ σ' es _ hw h _; cases h; exact hw
    | cons l ls ih =>
      intro s s' σ σ' es hR hw h hσ
      obtain ⟨m, e1, e2, h1, h2, rfl⟩ := run_cons h
      have hm := matches_of hR.ok h1
      rw [specState_append] at hσ
      cases hs1 : specState next σ e1 with
      | none => simp [hs1] at hσ
      | some σ1 =>
        simp only [hs1, Option.bind_some] at hσ
        have hR1 : Rel m σ1 := simulation_state Rel (fun _ _ _ _ _ hR hs => sim hR hs) hR (ls := [l]) (es := e1) (by simpa using run_step (ls := []) (e' := []) h1 rfl) hs1
        exact ih m s' σ1 σ' e2 hR1 (SyncQueue.step_wake hw hm.step) h2 hσ
  exact this ls _ _ _ _ _ (rel_init n) (by simp [SyncQueue.WakeInv, abs, init, Devector.items, Devector.new]) h hσ

/-- **C27.** While the queue (computed from the history) is not empty, no consumer is asleep. -/
theorem no_sleeper_when_nonempty (n : Nat) (ls : List (Label V)) (s : State V) (es : List (Event V)) (σ : Spec V) (t : Nat) (h : run step (init V n) ls = some (s, es))
    (hσ : specState next (Spec.new V) es = some σ) (hne : σ.queue.items ≠ []) (k : Kind) : s.ts[t]? ≠ some (.asleep k) := by
  have hW := wake_of h hσ
  have hR := rel_of h hσ
  intro hk
  have h1 := hW (by rw [hR.queue.1]; exact hne)
  have h2 := cnt_pos (f := PC.isAsleep) (ts := (abs s).ts) hk rfl
  omega

/-- Thread `t` is inside a blocking pull. -/
def InPull (s : State V) (t : Nat) : Prop := (∃ k, s.ts[t]? = some (.asleep k)) ∨ (∃ k, s.ts[t]? = some (.woken k)) ∨ s.ts[t]? = some .expired

/-- **C27, progress.** While the queue is not empty, any consumer blocked in a pull gets the first element with its own next step. -/
theorem blocked_consumer_gets_element (n : Nat) (ls : List (Label V)) (s : State V) (es : List (Event V)) (σ : Spec V) (v : V) (rest : List V) (t : Nat)
    (h : run step (init V n) ls = some (s, es)) (hσ : specState next (Spec.new V) es = some σ) (hv : σ.queue.items = v :: rest) (ht : InPull s t) :
    ∃ s', step s (.resume t 0) = some (s', [.pulled t v]) := by
  have hR := rel_of h hσ
  have hi : s.data.items = v :: rest := hR.queue.1.trans hv
  have he : s.data.empty = false := by rw [hR.ok.empty, hi]; rfl
  have hf := Devector.Ok.front_cons hi
  rcases ht with ⟨k, hk⟩ | ⟨k, hk⟩ | hk
  · exact absurd hk (no_sleeper_when_nonempty n ls s es σ t h hσ (by simp [hv]) k)
  · exact ⟨_, by simp [step, hR.ub, hk, waitThenPull, he, pop, hf]; rfl⟩
  · exact ⟨_, by simp [step, hR.ub, hk, lastPull, he, pop, hf]; rfl⟩

/-- Two blocked consumers, one element. -/
example : ∃ s es σ, run step (init Nat 3) [.pull 1 .throwing 0, .pull 2 .status 0, .push 0 7] = some (s, es) ∧ specState next (Spec.new Nat) es = some σ ∧ σ.queue.items = [7] ∧
    InPull s 1 ∧ InPull s 2 :=
  ⟨_, _, _, rfl, rfl, by decide, Or.inr (Or.inl ⟨_, rfl⟩), Or.inr (Or.inl ⟨_, rfl⟩)⟩

/-- Once a `close()` has returned, the queue is closed and nobody sleeps. -/
def ClosedInv (s : State V) (es : List (Event V)) : Prop := (∃ t, Event.closeReturned t ∈ es) → s.closed = true ∧ cnt PC.isAsleep s.ts = 0

theorem pop_ts (s : State V) (t : Nat) : ((pop s t).1.ts = s.ts.set t .idle ∨ (pop s t).1.ts = s.ts) ∧ (pop s t).1.closed = s.closed ∧ ∀ u, Event.closeReturned u ∉ (pop s t).2 := by
  simp only [pop]
  split <;> simp

theorem cnt_set_idle {ts : List PC} {t : Nat} {q : PC} (h0 : cnt PC.isAsleep ts = 0) (hq : q.isAsleep = false) : cnt PC.isAsleep (ts.set t q) = 0 := by
  cases ht : ts[t]? with
  | none => rw [List.set_eq_of_length_le (by simpa using ht)]; exact h0
  | some p => exact SyncQueue.cnt_asleep_set ht hq h0

theorem closed_step {s s' : State V} {l : Label V} {h es : List (Event V)} (hc : SyncQueue.ClosingInv (abs s)) (hI : ClosedInv s h) (hs : step s l = some (s', es)) :
    SyncQueue.ClosingInv (abs s') ∧ ClosedInv s' (h ++ es) := by
  have key : ∀ {t : Nat} {q : PC}, q ≠ .closing → ∀ u : Nat, (s.ts.set t q)[u]? = some .closing → s.closed = true := by
    intro t q hq u hu
    by_cases hut : t = u
    · subst hut
      by_cases hlt : t < s.ts.length
      · rw [List.getElem?_set_self hlt] at hu
        exact absurd (Option.some.inj hu) hq
      · rw [List.getElem?_eq_none (by simp; omega)] at hu; cases hu
    · rw [List.getElem?_set_ne hut] at hu
      exact hc u hu
  have noE : ∀ {es : List (Event V)}, (∀ u, Event.closeReturned u ∉ es) → (∃ t, Event.closeReturned t ∈ h ++ es) → s.closed = true ∧ cnt PC.isAsleep s.ts = 0 := by
    rintro es h1 ⟨t, ht⟩
    exact hI ⟨t, (List.mem_append.mp ht).resolve_right (h1 t)⟩
  have hpop : ∀ t, SyncQueue.ClosingInv (abs (pop s t).1) ∧ ClosedInv (pop s t).1 (h ++ (pop s t).2) := by
    intro t
    obtain ⟨g1, g2, g3⟩ := pop_ts s t
    constructor
    · intro u hu
      show (pop s t).1.closed = true
      have hu' : (pop s t).1.ts[u]? = some .closing := hu
      rw [g2]
      rcases g1 with g1 | g1 <;> rw [g1] at hu'
      · exact key (q := .idle) nofun u hu'
      · exact hc u hu'
    · intro hx
      obtain ⟨c1, c2⟩ := noE g3 hx
      refine ⟨g2.trans c1, ?_⟩
      rcases g1 with g1 | g1 <;> rw [g1]
      · exact cnt_set_idle c2 rfl
      · exact c2
  have hidle : ∀ {r : State V} {t : Nat} {q : PC} {es : List (Event V)}, r.ts = s.ts.set t q → q ≠ .closing → q.isAsleep = false → r.closed = s.closed → (∀ u, Event.closeReturned u ∉ es) →
      SyncQueue.ClosingInv (abs r) ∧ ClosedInv r (h ++ es) := by
    intro r t q es g1 gq ga g2 g3
    constructor
    · intro u hu
      show r.closed = true
      have hu' : r.ts[u]? = some .closing := hu
      rw [g1] at hu'
      rw [g2]; exact key gq u hu'
    · intro hx
      obtain ⟨c1, c2⟩ := noE g3 hx
      exact ⟨g2.trans c1, by rw [g1]; exact cnt_set_idle c2 ga⟩
  have hsame : ∀ {r : State V} {es : List (Event V)}, r.ts = s.ts → r.closed = s.closed → (∀ u, Event.closeReturned u ∉ es) → SyncQueue.ClosingInv (abs r) ∧ ClosedInv r (h ++ es) := by
    intro r es g1 g2 g3
    constructor
    · intro u hu
      show r.closed = true
      have hu' : r.ts[u]? = some .closing := hu
      rw [g1] at hu'
      rw [g2]; exact hc u hu'
    · intro hx
      obtain ⟨c1, c2⟩ := noE g3 hx
      exact ⟨g2.trans c1, by rw [g1]; exact c2⟩
  have hwait : ∀ t k, SyncQueue.ClosingInv (abs (waitThenPull s t k).1) ∧ ClosedInv (waitThenPull s t k).1 (h ++ (waitThenPull s t k).2) := by
    intro t k
    simp only [waitThenPull]
    split
    · split
      · exact hpop t
      · exact hidle (q := .idle) rfl nofun rfl rfl (by simp)
    · rename_i hcl
      constructor
      · exact fun u hu => key (q := .asleep k) nofun u hu
      · intro hx
        obtain ⟨c1, -⟩ := noE (by simp) hx
        simp [c1] at hcl
  have hlast : ∀ t, SyncQueue.ClosingInv (abs (lastPull s t).1) ∧ ClosedInv (lastPull s t).1 (h ++ (lastPull s t).2) := by
    intro t
    simp only [lastPull]
    split
    · split
      · exact hpop t
      · exact hidle (q := .idle) rfl nofun rfl rfl (by simp)
    · exact hidle (q := .idle) rfl nofun rfl rfl (by simp)
  simp only [step] at hs
  split at hs
  · cases hs
  cases l with
  | push t v =>
    obtain ⟨h1, h2⟩ := idle_of hs
    simp only [push] at h2
    split at h2 <;> cases h2
    · exact hsame rfl rfl (by simp)
    · constructor
      · exact fun u hu => hc u (SyncQueue.wake_closing hu)
      · intro hx
        obtain ⟨c1, -⟩ := noE (by simp) hx
        exact ⟨c1, SyncQueue.cnt_wake _⟩
  | busyPush t v => obtain ⟨h1, h2⟩ := idle_of hs; cases h2; exact hsame rfl rfl (by simp)
  | busyPull t => obtain ⟨h1, h2⟩ := idle_of hs; cases h2; exact hsame rfl rfl (by simp)
  | tryPull t i =>
    simp only at hs
    split at hs
    rotate_left
    · cases hs
    obtain ⟨h1, h2⟩ := idle_of hs
    simp only [tryPull] at h2
    split at h2
    · split at h2 <;> cases h2 <;> exact hsame rfl rfl (by simp)
    · have := hpop t; rw [h2] at this; exact this
  | pull t k i =>
    simp only at hs
    split at hs
    rotate_left
    · cases hs
    obtain ⟨h1, h2⟩ := idle_of hs
    have := hwait t k; rw [h2] at this; exact this
  | resume t i =>
    simp only at hs
    split at hs
    rotate_left
    · cases hs
    split at hs
    · rename_i k _
      simp only [Option.some.injEq] at hs
      have := hwait t k; rw [hs] at this; exact this
    · simp only [Option.some.injEq] at hs
      have := hlast t; rw [hs] at this; exact this
    · cases hs
  | spurious t =>
    simp only at hs
    split at hs <;> cases hs
    rename_i k _
    exact hidle (q := .woken k) rfl nofun rfl rfl (by simp)
  | timeout t => simp only at hs; split at hs <;> cases hs <;> exact hidle (q := .expired) rfl nofun rfl rfl (by simp)
  | interrupt t => simp only at hs; split at hs <;> cases hs <;> exact hidle (q := .idle) rfl nofun rfl rfl (by simp)
  | close t =>
    obtain ⟨h1, h2⟩ := idle_of hs
    cases h2
    constructor
    · exact fun u hu => rfl
    · intro hx
      obtain ⟨-, c2⟩ := noE (by simp) hx
      exact ⟨rfl, cnt_set_idle c2 rfl⟩
  | closeNotify t =>
    simp only at hs
    split at hs <;> cases hs
    rename_i h1
    constructor
    · exact fun u hu => key (q := .idle) nofun u (SyncQueue.wake_closing hu)
    · exact fun _ => ⟨hc t h1, SyncQueue.cnt_wake _⟩
  | size t => obtain ⟨h1, h2⟩ := idle_of hs; cases h2; exact hsame rfl rfl (by simp)
  | empty t => obtain ⟨h1, h2⟩ := idle_of hs; cases h2; exact hsame rfl rfl (by simp)
  | isClosed t => obtain ⟨h1, h2⟩ := idle_of hs; cases h2; exact hsame rfl rfl (by simp)
  | full t => obtain ⟨h1, h2⟩ := idle_of hs; cases h2; exact hsame rfl rfl (by simp)
  | take t =>
    obtain ⟨h1, h2⟩ := idle_of hs
    simp only [take] at h2
    split at h2 <;> cases h2 <;> exact hsame rfl rfl (by simp)

theorem closed_of {n : Nat} {ls : List (Label V)} {s : State V} {es : List (Event V)} (h : run step (init V n) ls = some (s, es)) :
    SyncQueue.ClosingInv (abs s) ∧ ClosedInv s es := by
  have := run_inv_hist (step := step) (fun s es => SyncQueue.ClosingInv (abs s) ∧ ClosedInv s es) (fun s l s' h es hi hs => closed_step hi.1 hi.2 hs) (hist := []) (s := init V n) ⟨?_, ?_⟩ h
  · simpa using this
  · intro u hu; simp [abs, init, List.getElem?_replicate] at hu
  · rintro ⟨u, hu⟩; cases hu

/-- **C26, nobody stays blocked.** Once a `close()` has returned, no consumer is asleep, whatever has been done to the container; and if the queue is empty, every consumer that is inside a
pull returns with its next step. -/
theorem close_releases_everybody (n : Nat) (ls : List (Label V)) (s : State V) (es : List (Event V)) (c t : Nat) (h : run step (init V n) ls = some (s, es)) (hc : .closeReturned c ∈ es) :
    (∀ k, s.ts[t]? ≠ some (.asleep k)) ∧
      ∀ σ, specState next (Spec.new V) es = some σ → σ.queue.items = [] → InPull s t → ∃ s', step s (.resume t 0) = some (s', [.noPull t .closed]) := by
  obtain ⟨h1, h2⟩ := (closed_of h).2 ⟨c, hc⟩
  have hna : ∀ k, s.ts[t]? ≠ some (.asleep k) := by
    intro k hk
    have := cnt_pos (f := PC.isAsleep) hk rfl
    omega
  refine ⟨hna, fun σ hσ hi ht => ?_⟩
  have hR := rel_of h hσ
  have he : s.data.empty = true := by
    have : s.data.items = [] := hR.queue.1.trans hi
    rw [hR.ok.empty, this]; rfl
  rcases ht with ⟨k, hk⟩ | ⟨k, hk⟩ | hk
  · exact absurd hk (hna k)
  · exact ⟨_, by simp [step, hR.ub, hk, waitThenPull, he, h1]; rfl⟩
  · exact ⟨_, by simp [step, hR.ub, hk, lastPull, he, h1]; rfl⟩

/-- A consumer was asleep when the queue was closed. -/
example : ∃ s es σ, run step (init Nat 2) [.pull 1 .throwing 0, .close 0, .closeNotify 0] = some (s, es) ∧ .closeReturned 0 ∈ es ∧ specState next (Spec.new Nat) es = some σ ∧ σ.queue.items = [] ∧
    InPull s 1 :=
  ⟨_, _, _, rfl, by decide, rfl, rfl, Or.inr (Or.inl ⟨_, rfl⟩)⟩

/-- **C26, pushing.** A push by an idle thread succeeds if and only if no `close()` has taken effect, whatever has been done to the container. -/
theorem push_iff_open (n : Nat) (ls : List (Label V)) (s s' : State V) (es es' : List (Event V)) (t : Nat) (v : V) (h : run step (init V n) ls = some (s, es))
    (hs : step s (.push t v) = some (s', es')) : (es' = [.pushed t v .closed] ∧ ∃ u, .closed u ∈ es) ∨ (es' = [.pushed t v .success] ∧ ∀ u, .closed u ∉ es) := by
  have hI := run_inv_hist (step := step) (fun s es => s.closed = true ↔ ∃ u, Event.closed u ∈ es) (fun s l s' h es hi hs => ?_) (hist := []) (s := init V n) (by simp [init]) h
  · simp only [List.nil_append] at hI
    simp only [step] at hs
    split at hs
    · cases hs
    · obtain ⟨-, h2⟩ := idle_of hs
      simp only [push] at h2
      by_cases hc : s.closed = true
      · rw [if_pos hc] at h2; cases h2
        exact .inl ⟨rfl, hI.mp hc⟩
      · rw [if_neg hc] at h2; cases h2
        exact .inr ⟨rfl, fun u hu => hc (hI.mpr ⟨u, hu⟩)⟩
  · have hsame : ∀ {r : State V} {es : List (Event V)}, r.closed = s.closed → (∀ u, Event.closed u ∉ es) → (r.closed = true ↔ ∃ u, Event.closed u ∈ h ++ es) := by
      intro r es h1 h2
      rw [h1, hi]
      constructor
      · rintro ⟨u, hu⟩; exact ⟨u, List.mem_append_left _ hu⟩
      · rintro ⟨u, hu⟩; exact ⟨u, (List.mem_append.mp hu).resolve_right (h2 u)⟩
    have hpop : ∀ t, ((pop s t).1.closed = true ↔ ∃ u, Event.closed u ∈ h ++ (pop s t).2) := by
      intro t
      refine hsame (pop_ts s t).2.1 ?_
      simp only [pop]; split <;> simp
    have hwait : ∀ t k, ((waitThenPull s t k).1.closed = true ↔ ∃ u, Event.closed u ∈ h ++ (waitThenPull s t k).2) := by
      intro t k
      simp only [waitThenPull]
      split
      · split
        · exact hpop t
        · exact hsame rfl (by simp)
      · exact hsame rfl (by simp)
    have hlast : ∀ t, ((lastPull s t).1.closed = true ↔ ∃ u, Event.closed u ∈ h ++ (lastPull s t).2) := by
      intro t
      simp only [lastPull]
      split
      · split
        · exact hpop t
        · exact hsame rfl (by simp)
      · exact hsame rfl (by simp)
    have htry : ∀ t, ((tryPull s t).1.closed = true ↔ ∃ u, Event.closed u ∈ h ++ (tryPull s t).2) := by
      intro t
      simp only [tryPull]
      split
      · split <;> exact hsame rfl (by simp)
      · exact hpop t
    simp only [step] at hs
    split at hs
    · cases hs
    cases l with
    | push t v =>
      obtain ⟨h1, h2⟩ := idle_of hs
      simp only [push] at h2
      split at h2 <;> cases h2 <;> exact hsame rfl (by simp)
    | close t => obtain ⟨h1, h2⟩ := idle_of hs; cases h2; simp
    | tryPull t i =>
      simp only at hs
      split at hs
      · obtain ⟨h1, h2⟩ := idle_of hs
        have := htry t; rw [h2] at this; exact this
      · cases hs
    | pull t k i =>
      simp only at hs
      split at hs
      · obtain ⟨h1, h2⟩ := idle_of hs
        have := hwait t k; rw [h2] at this; exact this
      · cases hs
    | resume t i =>
      simp only at hs
      split at hs
      · split at hs
        · rename_i k _
          have := hwait t k; rw [Option.some.inj hs] at this; exact this
        · have := hlast t; rw [Option.some.inj hs] at this; exact this
        · cases hs
      · cases hs
    | take t =>
      obtain ⟨h1, h2⟩ := idle_of hs
      simp only [take] at h2
      split at h2 <;> cases h2 <;> exact hsame rfl (by simp)
    | busyPush t v => obtain ⟨h1, h2⟩ := idle_of hs; cases h2; exact hsame rfl (by simp)
    | busyPull t => obtain ⟨h1, h2⟩ := idle_of hs; cases h2; exact hsame rfl (by simp)
    | size t => obtain ⟨h1, h2⟩ := idle_of hs; cases h2; exact hsame rfl (by simp)
    | empty t => obtain ⟨h1, h2⟩ := idle_of hs; cases h2; exact hsame rfl (by simp)
    | isClosed t => obtain ⟨h1, h2⟩ := idle_of hs; cases h2; exact hsame rfl (by simp)
    | full t => obtain ⟨h1, h2⟩ := idle_of hs; cases h2; exact hsame rfl (by simp)
    | _ => simp only at hs; split at hs <;> cases hs <;> exact hsame rfl (by simp)

/-- Both cases: an open queue, and a closed one whose container has been taken away. -/
example : (run step (init Nat 2) [.push 0 1, .push 0 2, .tryPull 1 0, .take 1, .push 1 3, .close 0, .push 1 4]).map Prod.snd = some
    [.pushed 0 1 .success, .pushed 0 2 .success, .pulled 1 1, .taken 1 [2], .pushed 1 3 .success, .closed 0, .pushed 1 4 .closed] := by decide +kernel

/-- **C26, draining.** `try_pull` on a non-empty queue succeeds whether or not it is closed. -/
theorem elements_survive_close (n : Nat) (ls : List (Label V)) (s : State V) (es : List (Event V)) (σ : Spec V) (v : V) (rest : List V) (t : Nat) (h : run step (init V n) ls = some (s, es))
    (hσ : specState next (Spec.new V) es = some σ) (hv : σ.queue.items = v :: rest) (ht : s.ts[t]? = some .idle) : ∃ s', step s (.tryPull t 0) = some (s', [.pulled t v]) := by
  have hR := rel_of h hσ
  have hi : s.data.items = v :: rest := hR.queue.1.trans hv
  have he : s.data.empty = false := by rw [hR.ok.empty, hi]; rfl
  have hf := Devector.Ok.front_cons hi
  exact ⟨_, by simp [step, hR.ub, idle, ht, tryPull, he, pop, hf]; rfl⟩

example : ∃ s es σ, run step (init Nat 2) [.push 0 4, .push 0 5, .close 0] = some (s, es) ∧ specState next (Spec.new Nat) es = some σ ∧ σ.queue.items = [4, 5] ∧ σ.queue.closed = true ∧
    s.ts[1]? = some .idle :=
  ⟨_, _, _, rfl, rfl, rfl, rfl, rfl⟩

/-! ## What `underlying_queue()` leaves behind -/

/-- **C62 is false.** In every reachable state in which an element has been pulled since the queue was last empty, `underlying_queue()` returns the elements, and from then on the queue, which
has no elements, reports that it is not empty and that its size is an enormous number, and the next `try_pull` reads the vector out of range. -/
theorem broken_by_underlying_queue (n : Nat) (ls : List (Label V)) (s : State V) (es : List (Event V)) (σ : Spec V) (t u : Nat) (h : run step (init V n) ls = some (s, es))
    (hσ : specState next (Spec.new V) es = some σ) (hb : σ.begun = true) (ht : s.ts[t]? = some .idle) (hu : s.ts[u]? = some .idle) :
    ∃ s1, step s (.take t) = some (s1, [.taken t σ.queue.items]) ∧ step s1 (.empty u) = some (s1, [.emptyIs u false]) ∧
      (∃ k, 0 < k ∧ step s1 (.size u) = some (s1, [.sizeIs u (2 ^ 64 - k)])) ∧ ∃ s2, step s1 (.tryPull u 0) = some (s2, []) ∧ s2.ub = true := by
  have hR := rel_of h hσ
  have hf := hR.begun.mp hb
  have hd : s.data.moved.drain s.data.vec.length = some s.data.items := Devector.drain_items (d := s.data.moved) hR.ok _ (by simp [Devector.moved, Devector.items])
  have hi : s.data.items = σ.queue.items := hR.queue.1
  have he : s.data.movedFrom.empty = false := by simp [Devector.movedFrom, Devector.empty]; omega
  refine ⟨{ s with data := s.data.movedFrom }, ?_, ?_, ⟨s.data.fi, hf, ?_⟩, { s with data := s.data.movedFrom, ub := true }, ?_, rfl⟩
  · simp [step, hR.ub, idle, ht, take, hd, hi]
  · simp [step, hR.ub, idle, hu, he]
  · simp only [step, hR.ub, idle, hu, Devector.movedFrom, Devector.size]
    simp; omega
  · have hfr : s.data.movedFrom.front = none := by simp [Devector.front, Devector.movedFrom]
    simp only [step, hR.ub, idle, hu, tryPull, he, pop, hfr]; simp

/-- The hypotheses are met after two pushes and a pull. -/
example : ∃ s es σ, run step (init Nat 2) [.push 0 1, .push 0 2, .tryPull 1 0] = some (s, es) ∧ specState next (Spec.new Nat) es = some σ ∧ σ.begun = true ∧ s.ts[0]? = some .idle ∧
    s.ts[1]? = some .idle :=
  ⟨_, _, _, rfl, rfl, rfl, rfl, rfl⟩

theorem run_pushes {s : State V} {t : Nat} (vs : List V) (hu : s.ub = false) (hc : s.closed = false) (ht : s.ts[t]? = some .idle) :
    ∃ ts, run step s (vs.map (.push t)) = some ({ s with data := { s.data with vec := s.data.vec ++ vs }, ts := ts }, vs.map (.pushed t · .success)) ∧ ts[t]? = some .idle := by
  induction vs generalizing s with
  | nil => exact ⟨s.ts, by simp [run], ht⟩
  | cons v vs ih =>
    have hs : step s (.push t v) = some ({ s with data := s.data.pushBack v, ts := s.ts.map PC.wake }, [.pushed t v .success]) := by
      simp [step, hu, idle, ht, push, hc]
    obtain ⟨ts, h1, h2⟩ := ih (s := { s with data := s.data.pushBack v, ts := s.ts.map PC.wake }) hu hc (by simp [ht, PC.wake])
    refine ⟨ts, ?_, h2⟩
    have := run_step hs h1
    simpa [Devector.pushBack, List.append_assoc] using this

/-- **C25 is false of the queue as a whole.** In every reachable state in which an element has been pulled since the queue was last empty and the queue is open, there is a number of elements
that can be pushed successfully after `underlying_queue()`, whatever they are, so that the queue then reports that it is empty: these elements are lost. -/
theorem elements_are_lost (n : Nat) (ls : List (Label V)) (s : State V) (es : List (Event V)) (σ : Spec V) (t : Nat) (h : run step (init V n) ls = some (s, es))
    (hσ : specState next (Spec.new V) es = some σ) (hb : σ.begun = true) (ho : σ.queue.closed = false) (ht : s.ts[t]? = some .idle) :
    ∃ k, 0 < k ∧ ∀ vs : List V, vs.length = k → ∃ s1, run step s (.take t :: vs.map (.push t) ++ [.empty t, .tryPull t 0]) =
      some (s1, .taken t σ.queue.items :: vs.map (.pushed t · .success) ++ [.emptyIs t true, .noPull t .empty]) := by
  have hR := rel_of h hσ
  have hf := hR.begun.mp hb
  have hd : s.data.moved.drain s.data.vec.length = some s.data.items := Devector.drain_items (d := s.data.moved) hR.ok _ (by simp [Devector.moved, Devector.items])
  have hi : s.data.items = σ.queue.items := hR.queue.1
  have hcl : s.closed = false := hR.queue.2.trans ho
  refine ⟨s.data.fi, hf, fun vs hvs => ?_⟩
  have h1 : step s (.take t) = some ({ s with data := s.data.movedFrom }, [.taken t σ.queue.items]) := by simp [step, hR.ub, idle, ht, take, hd, hi]
  obtain ⟨ts, h2, h3⟩ := run_pushes (s := { s with data := s.data.movedFrom }) (t := t) vs hR.ub hcl ht
  have he : ({ vec := [] ++ vs, fi := s.data.fi } : Devector V).empty = true := by simp [Devector.empty, hvs]
  have h4 : run step { s with data := { vec := [] ++ vs, fi := s.data.fi }, ts := ts } [.empty t, .tryPull t 0] =
      some ({ s with data := { vec := [] ++ vs, fi := s.data.fi }, ts := ts }, [.emptyIs t true, .noPull t .empty]) := by
    have a1 : step { s with data := { vec := [] ++ vs, fi := s.data.fi }, ts := ts } (.empty t) = some ({ s with data := { vec := [] ++ vs, fi := s.data.fi }, ts := ts }, [.emptyIs t true]) := by
      simp [step, hR.ub, idle, h3]; simpa using he
    have a2 : step { s with data := { vec := [] ++ vs, fi := s.data.fi }, ts := ts } (.tryPull t 0) = some ({ s with data := { vec := [] ++ vs, fi := s.data.fi }, ts := ts }, [.noPull t .empty]) := by
      simp only [step, hR.ub, idle, h3, tryPull, he, hcl]; simp
    exact run_step a1 (run_step (e' := []) a2 rfl)
  have h5 := run_step h1 (run_append h2 h4)
  exact ⟨_, by simpa using h5⟩

/-- Two pushes, a pull, `underlying_queue()`, a push: the pushed element is not there. The history is not one of a FIFO queue. -/
example : ∃ s es, run step (init Nat 1) [.push 0 1, .push 0 2, .tryPull 0 0, .take 0, .push 0 3, .tryPull 0 0] = some (s, es) ∧
    es = [.pushed 0 1 .success, .pushed 0 2 .success, .pulled 0 1, .taken 0 [2], .pushed 0 3 .success, .noPull 0 .empty] ∧ ¬ Accepts (specNext .fifo) (Queue.new Nat) es := by
  refine ⟨_, _, rfl, ?_, ?_⟩ <;> decide +kernel

/-! ## Storage -/

/-- One element is pushed; then `k` times another one is pushed and one is pulled. There are never more than two elements in the queue. -/
def busy : Nat → List (Label Nat)
  | 0 => [.push 0 0]
  | k + 1 => busy k ++ [.push 0 0, .tryPull 0 0]

/-- **C62, storage.** The container keeps the places of pulled elements until the queue is empty: with never more than two elements in the queue the vector grows without limit. -/
theorem storage_grows (k : Nat) : ∃ s es, run step (init Nat 1) (busy k) = some (s, es) ∧ s.data.vec.length = k + 1 ∧ s.data.items.length = 1 := by
  have : ∃ es, run step (init Nat 1) (busy k) = some ({ data := { vec := List.replicate (k + 1) 0, fi := k }, closed := false, ts := [.idle], ub := false }, es) := by
    induction k with
    | zero => exact ⟨_, rfl⟩
    | succ k ih =>
      obtain ⟨es, ih⟩ := ih
      have h1 : step ({ data := { vec := List.replicate (k + 1) 0, fi := k }, closed := false, ts := [.idle], ub := false } : State Nat) (.push 0 0) =
          some ({ data := { vec := List.replicate (k + 2) 0, fi := k }, closed := false, ts := [.idle], ub := false }, [.pushed 0 0 .success]) := by
        simp [step, idle, push, Devector.pushBack, PC.wake, List.replicate_succ' (n := k + 1)]
      have h2 : step ({ data := { vec := List.replicate (k + 2) 0, fi := k }, closed := false, ts := [.idle], ub := false } : State Nat) (.tryPull 0 0) =
          some ({ data := { vec := List.replicate (k + 2) 0, fi := k + 1 }, closed := false, ts := [.idle], ub := false }, [.pulled 0 0]) := by
        have hf : (List.replicate (k + 2) 0)[k]? = some 0 := by rw [List.getElem?_replicate]; simp
        have e1 : ¬ (k + 2 = k) := by omega
        have e2 : ¬ (k + 2 = k + 1) := by omega
        simp [step, idle, tryPull, pop, Devector.front, Devector.popFront, Devector.empty, Devector.skip, hf, e1, e2]
      exact ⟨_, run_append ih (run_step h1 (run_step (e' := []) h2 rfl))⟩
  obtain ⟨es, h⟩ := this
  exact ⟨_, es, h, by simp, by simp [Devector.items]⟩

end Verif.DevQueue
