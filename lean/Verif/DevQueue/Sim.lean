import Verif.Devector.Lemmas
import Verif.DevQueue.Spec
import Verif.SyncQueue.Lemmas
/-! # As long as the container is in order, the queue is that of `Verif.SyncQueue` -/

set_option linter.unusedSectionVars false
set_option linter.unusedSimpArgs false

namespace Verif.DevQueue
open SyncQueue (PC Kind Status Event Label fifo fifo_refines ClosingInv)
variable {V : Type} [DecidableEq V]

/-- The queue without its container. -/
def abs (s : State V) : SyncQueue.State V := { data := s.data.items, closed := s.closed, ts := s.ts }

/-- Events other than pulls of elements and of the container. -/
def plain : Event V → Bool
  | .pulled _ _ => false
  | .taken _ _ => false
  | _ => true

/-- How a step changes the container. -/
inductive Change (s s' : State V) (es : List (Event V)) : Prop
  | none (h1 : es = []) (h2 : s'.data = s.data)
  | plain (e : Event V) (h1 : es = [e]) (h2 : plain e = true) (h3 : s'.data.Ok) (h4 : s'.data.fi = s.data.fi)
  | pulled (t : Nat) (v : V) (h1 : es = [.pulled t v]) (h2 : s'.data.Ok) (h3 : 0 < s'.data.fi ↔ s'.data.items ≠ [])
  | taken (t : Nat) (vs : List V) (h1 : es = [.taken t vs]) (h2 : s'.data = s.data.movedFrom)

structure Matches (s s' : State V) (l : Label V) (es : List (Event V)) : Prop where
  step : SyncQueue.step fifo (abs s) l = some (abs s', es)
  ub : s'.ub = false
  change : Change s s' es

section
variable {s s' : State V} {es : List (Event V)} {t : Nat} {l : Label V}

/-- A successful pull in the list model. -/
theorem pop_abs (hO : s.data.Ok) (hu : s.ub = false) (he : s.data.empty = false) :
    SyncQueue.pop fifo (abs s) t 0 = some (abs (pop s t).1, (pop s t).2) ∧ (pop s t).1.ub = false ∧ Change s (pop s t).1 (pop s t).2 := by
  rw [hO.empty] at he
  cases hi : s.data.items with
  | nil => simp [hi] at he
  | cons v l =>
    have hf := Devector.Ok.front_cons hi
    have hp := hO.popFront hi
    refine ⟨?_, ?_, ?_⟩
    · simp [SyncQueue.pop, fifo, abs, hi, pop, hf, hp.2]
    · simp [pop, hf, hu]
    · refine .pulled t v (by simp [pop, hf]) (by simpa [pop, hf] using hp.1) ?_
      have := Devector.fi_popFront hO hi
      simpa [pop, hf, hp.2] using this

theorem idle_of (h : idle s t r = some (s', es)) : s.ts[t]? = some .idle ∧ r = (s', es) := by
  simp only [idle] at h
  split at h <;> cases h
  exact ⟨by assumption, rfl⟩

theorem empty_abs (hO : s.data.Ok) : (abs s).data.isEmpty = s.data.empty := by rw [hO.empty]; rfl

theorem wait_abs (hO : s.data.Ok) (hu : s.ub = false) (k : Kind) : SyncQueue.waitThenPull fifo (abs s) t k 0 = some (abs (waitThenPull s t k).1, (waitThenPull s t k).2) ∧
    (waitThenPull s t k).1.ub = false ∧ Change s (waitThenPull s t k).1 (waitThenPull s t k).2 := by
  have he := empty_abs hO
  have hc' : (abs s).closed = s.closed := rfl
  cases hem : s.data.empty with
  | false =>
    have := pop_abs (t := t) hO hu hem
    simpa [waitThenPull, SyncQueue.waitThenPull, he, hem] using this
  | true =>
    cases hc : s.closed with
    | true =>
      simp only [waitThenPull, SyncQueue.waitThenPull, he, hem, hc', hc]
      exact ⟨by simp [abs, hc], hu, .plain _ rfl rfl hO rfl⟩
    | false =>
      simp only [waitThenPull, SyncQueue.waitThenPull, he, hem, hc', hc]
      exact ⟨by simp [abs, hc], hu, .none rfl rfl⟩

/-- The last test of an expired wait, SyncQueue.step's case. -/
theorem last_abs (hO : s.data.Ok) (hu : s.ub = false) (ht : s.ts[t]? = some .expired) : SyncQueue.step fifo (abs s) (.resume t 0) = some (abs (lastPull s t).1, (lastPull s t).2) ∧
    (lastPull s t).1.ub = false ∧ Change s (lastPull s t).1 (lastPull s t).2 := by
  have he := empty_abs hO
  have hc' : (abs s).closed = s.closed := rfl
  have ht' : (abs s).ts[t]? = some .expired := ht
  cases hem : s.data.empty with
  | false =>
    have := pop_abs (t := t) hO hu hem
    simpa [lastPull, SyncQueue.step, ht', he, hem] using this
  | true =>
    cases hc : s.closed with
    | true =>
      simp only [lastPull, SyncQueue.step, ht', he, hem, hc', hc]
      exact ⟨by simp [abs, hc], hu, .plain _ rfl rfl hO rfl⟩
    | false =>
      simp only [lastPull, SyncQueue.step, ht', he, hem, hc', hc]
      exact ⟨by simp [abs, hc], hu, .plain _ rfl rfl hO rfl⟩

theorem matches_of (hO : s.data.Ok) (hs : step s l = some (s', es)) : Matches s s' l es := by
  have hu : s.ub = false := by
    simp only [step] at hs
    split at hs
    · cases hs
    · simpa using ‹¬ s.ub = true›
  simp only [step, hu, Bool.false_eq_true, if_false] at hs
  have he := empty_abs hO
  have hpop := fun t => pop_abs (t := t) hO hu
  cases l with
  | push t v =>
    obtain ⟨h1, h2⟩ := idle_of hs
    simp only [push] at h2
    split at h2 <;> cases h2
    · rename_i hc
      exact ⟨by simp [SyncQueue.step, abs, h1, hc], (by first | exact hu | rfl), .plain _ rfl rfl hO rfl⟩
    · rename_i hc
      exact ⟨by simp [SyncQueue.step, abs, h1, hc, hO.items_pushBack], (by first | exact hu | rfl), .plain _ rfl rfl (hO.pushBack v) rfl⟩
  | busyPush t v =>
    obtain ⟨h1, h2⟩ := idle_of hs
    cases h2
    exact ⟨by simp [SyncQueue.step, abs, h1], (by first | exact hu | rfl), .plain _ rfl rfl hO rfl⟩
  | busyPull t =>
    obtain ⟨h1, h2⟩ := idle_of hs
    cases h2
    exact ⟨by simp [SyncQueue.step, abs, h1], (by first | exact hu | rfl), .plain _ rfl rfl hO rfl⟩
  | tryPull t i =>
    simp only at hs
    split at hs
    rotate_left
    · cases hs
    subst ‹i = 0›
    obtain ⟨h1, h2⟩ := idle_of hs
    have h1' : (abs s).ts[t]? = some .idle := h1
    simp only [tryPull] at h2
    split at h2
    · rename_i hem
      split at h2 <;> cases h2
      · rename_i hc
        have hc' : (abs s).closed = true := hc
        exact ⟨by simp only [SyncQueue.step, h1', he, hem, hc', if_true], (by first | exact hu | rfl), .plain _ rfl rfl hO rfl⟩
      · rename_i hc
        have hc' : (abs s).closed = false := by simpa [abs] using hc
        exact ⟨by simp only [SyncQueue.step, h1', he, hem, hc', if_true, Bool.false_eq_true, if_false], (by first | exact hu | rfl), .plain _ rfl rfl hO rfl⟩
    · rename_i hem
      obtain ⟨g1, g2, g3⟩ := hpop t (by simpa using hem)
      rw [h2] at g1 g2 g3
      exact ⟨by simp only [SyncQueue.step, h1', he, hem, Bool.false_eq_true, if_false]; exact g1, g2, g3⟩
  | pull t k i =>
    simp only at hs
    split at hs
    rotate_left
    · cases hs
    subst ‹i = 0›
    obtain ⟨h1, h2⟩ := idle_of hs
    have h1' : (abs s).ts[t]? = some .idle := h1
    obtain ⟨g1, g2, g3⟩ := wait_abs (t := t) hO hu k
    rw [h2] at g1 g2 g3
    exact ⟨by simp only [SyncQueue.step, h1']; exact g1, g2, g3⟩
  | resume t i =>
    simp only at hs
    split at hs
    rotate_left
    · cases hs
    subst ‹i = 0›
    split at hs
    · rename_i k h1
      have h1' : (abs s).ts[t]? = some (.woken k) := h1
      simp only [Option.some.injEq] at hs
      obtain ⟨g1, g2, g3⟩ := wait_abs (t := t) hO hu k
      rw [hs] at g1 g2 g3
      exact ⟨by simp only [SyncQueue.step, h1']; exact g1, g2, g3⟩
    · rename_i h1
      simp only [Option.some.injEq] at hs
      obtain ⟨g1, g2, g3⟩ := last_abs (t := t) hO hu h1
      rw [hs] at g1 g2 g3
      exact ⟨g1, g2, g3⟩
    · cases hs
  | spurious t =>
    simp only at hs
    split at hs <;> cases hs
    rename_i k h1
    have h1' : (abs s).ts[t]? = some (.asleep k) := h1
    exact ⟨by simp only [SyncQueue.step, h1']; rfl, (by first | exact hu | rfl), .none rfl rfl⟩
  | timeout t =>
    simp only at hs
    split at hs <;> cases hs
    · rename_i h1
      have h1' : (abs s).ts[t]? = some (.asleep .timed) := h1
      exact ⟨by simp only [SyncQueue.step, h1']; rfl, (by first | exact hu | rfl), .none rfl rfl⟩
    · rename_i h1
      have h1' : (abs s).ts[t]? = some (.woken .timed) := h1
      exact ⟨by simp only [SyncQueue.step, h1']; rfl, (by first | exact hu | rfl), .none rfl rfl⟩
  | interrupt t =>
    simp only at hs
    split at hs <;> cases hs
    · rename_i k h1
      have h1' : (abs s).ts[t]? = some (.asleep k) := h1
      exact ⟨by simp only [SyncQueue.step, h1']; rfl, (by first | exact hu | rfl), .plain _ rfl rfl hO rfl⟩
    · rename_i k h1
      have h1' : (abs s).ts[t]? = some (.woken k) := h1
      exact ⟨by simp only [SyncQueue.step, h1']; rfl, (by first | exact hu | rfl), .plain _ rfl rfl hO rfl⟩
  | close t =>
    obtain ⟨h1, h2⟩ := idle_of hs
    cases h2
    exact ⟨by simp [SyncQueue.step, abs, h1], (by first | exact hu | rfl), .plain _ rfl rfl hO rfl⟩
  | closeNotify t =>
    simp only at hs
    split at hs <;> cases hs
    rename_i h1
    have h1' : (abs s).ts[t]? = some .closing := h1
    exact ⟨by simp only [SyncQueue.step, h1']; rfl, (by first | exact hu | rfl), .plain _ rfl rfl hO rfl⟩
  | size t =>
    obtain ⟨h1, h2⟩ := idle_of hs
    cases h2
    exact ⟨by simp [SyncQueue.step, abs, h1, hO.size], (by first | exact hu | rfl), .plain _ rfl rfl hO rfl⟩
  | empty t =>
    obtain ⟨h1, h2⟩ := idle_of hs
    cases h2
    exact ⟨by simp [SyncQueue.step, abs, h1, hO.empty], (by first | exact hu | rfl), .plain _ rfl rfl hO rfl⟩
  | isClosed t =>
    obtain ⟨h1, h2⟩ := idle_of hs
    cases h2
    exact ⟨by simp [SyncQueue.step, abs, h1], (by first | exact hu | rfl), .plain _ rfl rfl hO rfl⟩
  | full t =>
    obtain ⟨h1, h2⟩ := idle_of hs
    cases h2
    exact ⟨by simp [SyncQueue.step, abs, h1], (by first | exact hu | rfl), .plain _ rfl rfl hO rfl⟩
  | take t =>
    obtain ⟨h1, h2⟩ := idle_of hs
    have hd : s.data.moved.drain s.data.vec.length = some s.data.items :=
      Devector.drain_items (d := s.data.moved) hO _ (by simp [Devector.moved, Devector.items])
    simp only [take, hd] at h2
    cases h2
    exact ⟨by simp [SyncQueue.step, abs, h1, Devector.items_movedFrom], (by first | exact hu | rfl), .taken t _ rfl rfl⟩

end

/-- The simulation relation. -/
structure Rel (s : State V) (σ : Spec V) : Prop where
  ub : s.ub = false
  ok : s.data.Ok
  closing : ClosingInv (abs s)
  queue : SyncQueue.R Eq (abs s) σ.queue
  begun : σ.begun = true ↔ 0 < s.data.fi

theorem rel_init (n : Nat) : Rel (init V n) (Spec.new V) where
  ub := rfl
  ok := Devector.ok_new
  closing := fun u hu => by simp [abs, init, List.getElem?_replicate] at hu
  queue := ⟨rfl, rfl⟩
  begun := by simp [Spec.new, init, Devector.new]

theorem sim {s s' : State V} {l : Label V} {es : List (Event V)} {σ : Spec V} (h : Rel s σ) (hs : step s l = some (s', es)) : Follows next (Rel s') σ es := by
  obtain ⟨m1, m2, m3⟩ := matches_of h.ok hs
  have hc := SyncQueue.step_closing h.closing m1
  have hq := SyncQueue.step_sim fifo_refines h.closing h.queue m1
  cases m3 with
  | none h1 h2 =>
    subst h1
    exact ⟨m2, h2 ▸ h.ok, hc, hq, h2 ▸ h.begun⟩
  | plain e h1 h2 h3 h4 =>
    subst h1
    simp only [Follows, next] at hq ⊢
    cases hn : SyncQueue.specNext .fifo σ.queue e with
    | illegal => simp [hn] at hq
    | undefined => simp
    | ok q =>
      simp only [hn] at hq
      cases e <;> simp only [plain, Bool.false_eq_true] at h2 <;> exact ⟨m2, h3, hc, hq, by simpa [begunAfter, h4] using h.begun⟩
  | pulled t v h1 h2 h3 =>
    subst h1
    simp only [Follows, next] at hq ⊢
    cases hn : SyncQueue.specNext .fifo σ.queue (.pulled t v) with
    | illegal => simp [hn] at hq
    | undefined => simp
    | ok q =>
      simp only [hn] at hq
      refine ⟨m2, h2, hc, hq, ?_⟩
      have : s'.data.items = q.items := hq.1
      rw [h3, this]
      simp [begunAfter]
  | taken t vs h1 h2 =>
    subst h1
    simp only [Follows, next] at hq ⊢
    cases hn : SyncQueue.specNext .fifo σ.queue (.taken t vs) with
    | illegal => simp [hn] at hq
    | undefined => simp
    | ok q =>
      simp only [hn] at hq
      by_cases hb : σ.begun = true
      · simp [hb]
      · simp only [hb, if_false]
        have hf : s.data.fi = 0 := by
          have := mt h.begun.mpr hb
          omega
        have hok : s'.data.Ok := by rw [h2]; exact Devector.ok_movedFrom.mpr hf
        refine ⟨m2, hok, hc, hq, ?_⟩
        simp [h2, Devector.movedFrom, hf]

end Verif.DevQueue
