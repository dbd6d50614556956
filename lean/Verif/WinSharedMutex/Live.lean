import Verif.WinSharedMutex.Sim
/-! # Tokens and sleepers -/

set_option linter.unusedSimpArgs false

namespace Verif.WinSharedMutex

/-- The sum of `f` over the threads below `n`. -/
def total (f : PC → Nat) (pc : Nat → PC) : Nat → Nat
  | 0 => 0
  | n + 1 => total f pc n + f (pc n)

theorem total_upd_ge (f : PC → Nat) (pc : Nat → PC) {t n : Nat} (p : PC) (h : n ≤ t) : total f (upd pc t p) n = total f pc n := by
  induction n with
  | zero => rfl
  | succ n ih => simp only [total, ih (by omega), upd_apply]; rw [if_neg (by omega)]

theorem total_upd (f : PC → Nat) (pc : Nat → PC) {t n : Nat} (p : PC) (h : t < n) : total f (upd pc t p) n + f (pc t) = total f pc n + f p := by
  induction n with
  | zero => omega
  | succ n ih =>
    simp only [total, upd_apply]
    by_cases e : n = t
    · subst e
      rw [total_upd_ge f pc p (Nat.le_refl _), if_pos rfl]; omega
    · rw [if_neg e]
      have := ih (by omega)
      omega

theorem le_total (f : PC → Nat) (pc : Nat → PC) {t n : Nat} (h : t < n) : f (pc t) ≤ total f pc n := by
  induction n with
  | zero => omega
  | succ n ih =>
    simp only [total]
    by_cases e : n = t
    · subst e; omega
    · have := ih (by omega); omega

theorem total_zero (f : PC → Nat) (pc : Nat → PC) {n : Nat} (h : ∀ t, f (pc t) = 0) : total f pc n = 0 := by
  induction n with
  | zero => rfl
  | succ n ih => simp only [total, ih, h]

/-- A shared or upgrade request that waits, or has waited till its deadline. -/
def slpS : PC → Nat
  | .waiting (.lock _) _ => 0
  | .waiting _ _ => 1
  | .loop .sharedExpired _ => 1
  | _ => 0

/-- An exclusive request that waits, or has waited till its deadline. -/
def slpX : PC → Nat
  | .waiting (.lock _) _ => 1
  | .loop .lockExpired _ => 1
  | .releasing _ _ _ (some (.lockExpired, _)) => 1
  | _ => 0

def relEx : PC → Nat
  | .releasing ex _ _ _ => ex
  | _ => 0
def relUn : PC → Nat
  | .releasing _ un _ _ => un
  | _ => 0

/-- On its way to exclusive ownership. -/
def trying : PC → Bool
  | .start (.lock _) => true
  | .loop (.lock _) _ => true
  | _ => false

def Word.free (w : Word) : Bool := w.sc == 0 && !w.x

theorem slpS_idle : slpS .idle = 0 := rfl
theorem slpX_idle : slpX .idle = 0 := rfl
theorem relEx_idle : relEx .idle = 0 := rfl
theorem relUn_idle : relUn .idle = 0 := rfl
theorem relEx_loop (c : Code) (w : Word) : relEx (.loop c w) = 0 := rfl
theorem relUn_loop (c : Code) (w : Word) : relUn (.loop c w) = 0 := rfl

/-- Only what can be called is begun. -/
def fromCall : PC → Bool
  | .start c => c.callable
  | .waiting c _ => c.callable
  | _ => true

structure Live (s : State) : Prop where
  bound : ∀ t, s.threads ≤ t → s.pc t = .idle
  st : ∀ t, fromCall (s.pc t) = true
  l1 : total slpS s.pc s.threads + s.ex + total relEx s.pc s.threads ≤ s.word.sw + s.un + total relUn s.pc s.threads
  l2 : total slpX s.pc s.threads ≤ s.word.xw + s.ex + total relEx s.pc s.threads
  l3 : s.word.free = true → s.word.sw = 0
  l4 : s.word.free = true → 0 < total slpX s.pc s.threads → 0 < s.ex + total relEx s.pc s.threads ∨ ∃ t, trying (s.pc t) = true

theorem live_init (threads : Nat) : Live (init threads) := by
  have h (f : PC → Nat) (hf : f .idle = 0) : total f (fun _ => .idle) threads = 0 := total_zero f _ fun _ => hf
  constructor <;> simp [init, h _ slpS_idle, h _ slpX_idle, h _ relEx_idle, h _ relUn_idle, Word.free, fromCall]

/-- One thread moves. -/
theorem Live.move {s s' : State} (h : Live s) {t : Nat} {p q : PC} (hp : s.pc t = p) (hpc : s'.pc = upd s.pc t q) (ht : s'.threads = s.threads) (hi : p ≠ .idle ∨ t < s.threads) (hq : fromCall q = true)
    (d1 : slpS q + s'.ex + relEx q + (s.word.sw + s.un + relUn p) ≤ slpS p + s.ex + relEx p + (s'.word.sw + s'.un + relUn q))
    (d2 : slpX q + (s.word.xw + s.ex + relEx p) ≤ slpX p + (s'.word.xw + s'.ex + relEx q))
    (d3 : s'.word.free = true → s'.word.sw = 0)
    (d4 : s'.word.free = true → s'.word.xw = 0 ∨ 0 < s'.ex + relEx q ∨ trying q = true ∨ (s.word.free = true ∧ slpX q ≤ slpX p ∧ trying p = false ∧ s.ex + relEx p ≤ s'.ex + relEx q)) :
    Live s' := by
  have htt : t < s.threads := by
    rcases hi with hi | hi
    · by_cases hlt : t < s.threads
      · exact hlt
      · exact absurd (hp ▸ h.bound t (by omega)) hi
    · exact hi
  have hA := total_upd slpS s.pc q htt
  have hB := total_upd slpX s.pc q htt
  have hE := total_upd relEx s.pc q htt
  have hU := total_upd relUn s.pc q htt
  rw [hp] at hA hB hE hU
  have e1 := h.l1
  have e2 := h.l2
  refine ⟨?_, ?_, ?_, ?_, d3, ?_⟩
  · intro x hx
    rw [hpc, upd_apply, if_neg (by omega)]; exact h.bound x (by omega)
  · intro x
    rw [hpc, upd_apply]; split
    · exact hq
    · exact h.st x
  · rw [hpc, ht]; omega
  · rw [hpc, ht]; omega
  · intro hf hb
    rw [hpc, ht] at hb ⊢
    rcases d4 hf with h0 | h0 | h0 | ⟨h0, h1, h2, h3⟩
    · left; omega
    · left
      have := le_total relEx (upd s.pc t q) htt
      simp only [upd_apply, if_true] at this
      omega
    · right; exact ⟨t, by simpa [upd_apply] using h0⟩
    · rcases h.l4 h0 (by omega) with h4 | ⟨x, hx⟩
      · left
        omega
      · right
        refine ⟨x, ?_⟩
        rw [upd_apply, if_neg]
        · exact hx
        · rintro rfl; rw [hp, h2] at hx; cases hx

/-- What is known of the word. -/
structure Sane (w : Word) : Prop where
  sc : w.sc < 2048
  sw : w.sw < 2048
  xw : w.xw < 128
  free : w.free = true → w.xb = false ∧ w.u = false
  xb : w.xb = true → 0 < w.xw

theorem sane {s : State} {o : Own} (h : Rel s o) : Sane s.word := by
  obtain ⟨h1, h2, h3, h4, h5, h6⟩ := h.wf
  rw [h.word]
  obtain ⟨rs, ug, wr, cv, sw, xw, as⟩ := o
  constructor <;> cases ug <;> cases wr <;> cases cv <;> cases as <;> cases rs <;> simp_all [Own.word, Own.owned, Own.owners, Own.writing, Own.handed, Word.free]

theorem live_decide {s : State} (h : Live s) (hs : Sane s.word) {t : Nat} {c : Code} {p : PC} (hp : s.pc t = p) (hi : p ≠ .idle) (h1 : slpS (.loop c s.word) = slpS p) (h2 : slpX (.loop c s.word) = slpX p)
    (h3 : relEx p = 0) (h4 : relUn p = 0) (h5 : trying p = trying (.loop c s.word)) : Live (s.decide t c s.word).1 := by
  have hf := hs.free
  unfold State.decide
  split
  · rename_i r he
    refine h.move (q := .idle) hp rfl rfl (.inl hi) rfl ?_ ?_ h.l3 ?_
    · simp only [slpS_idle, relEx_idle, relUn_idle, h3, h4]; omega
    · simp only [slpX_idle, relEx_idle, h3]; omega
    · intro hw
      obtain ⟨hb, hu⟩ := hf hw
      right; right; right
      refine ⟨hw, by simp [slpX_idle], ?_, by simp [relEx_idle, relEx_loop, h3]⟩
      rw [h5]
      cases c <;> simp_all [trying, plan, Word.free] <;> grind
  · rename_i r he
    refine h.move (q := .idle) hp rfl rfl (.inl hi) rfl ?_ ?_ h.l3 ?_
    · simp only [slpS_idle, relEx_idle, relUn_idle, h3, h4]; omega
    · simp only [slpX_idle, relEx_idle, h3]; omega
    · intro hw
      obtain ⟨hb, hu⟩ := hf hw
      right; right; right
      refine ⟨hw, by simp [slpX_idle], ?_, by simp [relEx_idle, relEx_loop, h3]⟩
      rw [h5]
      cases c <;> simp_all [trying, plan, Word.free] <;> grind
  · refine h.move (q := .loop c s.word) hp rfl rfl (.inl hi) rfl ?_ ?_ h.l3 ?_
    · rw [h1]; simp [relEx_loop, relUn_loop, h3, h4]
    · rw [h2]; simp [relEx_loop, h3]
    · intro hw
      right; right
      by_cases ht : trying p = true
      · left; rw [← h5]; exact ht
      · right; exact ⟨hw, by omega, by simpa using ht, by simp [relEx_idle, relEx_loop, h3]⟩

theorem live_decide_old {s : State} (h : Live s) {t : Nat} {c : Code} {w : Word} (hc : c = .lockExpired ∨ (c = .sharedExpired ∧ w.closed = true)) {p : PC} (hp : s.pc t = p) (hi : p ≠ .idle)
    (h1 : slpS (.loop c w) = slpS p) (h2 : slpX (.loop c w) = slpX p) (h3 : relEx p = 0) (h4 : relUn p = 0) (h5 : trying p = false) : Live (s.decide t c w).1 := by
  have hp : Live { s with pc := upd s.pc t (.loop c w) } := by
    refine h.move (q := .loop c w) hp rfl rfl (.inl hi) rfl ?_ ?_ h.l3 ?_
    · rw [h1]; simp [relEx_loop, relUn_loop, h3, h4]
    · rw [h2]; simp [relEx_loop, h3]
    · intro hw
      right; right; right
      exact ⟨hw, by omega, h5, by simp [relEx_idle, relEx_loop, h3]⟩
  unfold State.decide
  rcases hc with rfl | ⟨rfl, hw⟩
  · split
    · rename_i r he; simp only [plan] at he; (repeat' split at he) <;> cases he
    · rename_i r he; simp only [plan] at he; (repeat' split at he) <;> cases he
    · exact hp
  · simp only [plan, hw, ↓reduceIte]
    exact hp

/-- Where a thread goes after its compare-and-swap. -/
def place (c : Code) (old : Word) : Kont → PC
  | .granted _ => .idle
  | .refused _ => .idle
  | .timedOut _ notify => .releasing 0 notify 0 none
  | .down _ ex un up => .releasing ex un up none
  | .wait _ => .waiting c old
  | .waitUp => .waitUp

theorem commit_place (s : State) (t : Nat) (c : Code) (old new : Word) (k : Kont) :
    (s.commit t c old new k).1 = { s with word := new, pc := upd s.pc t (place c old k) } := by cases k <;> rfl

structure Deltas (c : Code) (w new : Word) (k : Kont) : Prop where
  d1 : slpS (place c w k) + relEx (place c w k) + w.sw ≤ slpS (.loop c w) + new.sw + relUn (place c w k)
  d2 : slpX (place c w k) + w.xw ≤ slpX (.loop c w) + new.xw + relEx (place c w k)
  d3 : new.free = true → new.sw = 0
  d4 : new.free = true → new.xw = 0 ∨ 0 < relEx (place c w k)
  d5 : fromCall (place c w k) = true

theorem deltas {w : Word} (hs : Sane w) (h3 : w.free = true → w.sw = 0) {c : Code} {new : Word} {k : Kont} (hk : plan w c = .cas new k) : Deltas c w new k := by
  obtain ⟨q1, q2, q3, q4, q5⟩ := hs
  obtain ⟨sc, sw, x, u, xw, xb⟩ := w
  cases c <;> simp only [plan] at hk <;> (repeat' split at hk) <;> (try (simp only [reduceCtorEq] at hk; done)) <;> (simp only [Plan.cas.injEq] at hk; obtain ⟨rfl, rfl⟩ := hk) <;>
    constructor <;>
    simp_all [place, fromCall, Code.callable, slpS, slpX, relEx, relUn, Word.free, Word.closed, Word.incSC, Word.decSC, Word.incSW, Word.decSW, Word.incXW, Word.decXW, Word.letGo, exTokens, unTokens] <;> grind

theorem live_commit {s : State} (h : Live s) (hs : Sane s.word) {t : Nat} {c : Code} (hp : s.pc t = .loop c s.word) {new : Word} {k : Kont} (hk : plan s.word c = .cas new k) :
    Live (s.commit t c s.word new k).1 := by
  have d := deltas hs h.l3 hk
  rw [commit_place]
  refine h.move (q := place c s.word k) hp rfl rfl (.inl (by simp)) d.d5 ?_ ?_ d.d3 ?_
  · have := d.d1
    simp only [relEx_loop, relUn_loop]; omega
  · have := d.d2
    simp only [relEx_loop]; omega
  · intro hf
    rcases d.d4 hf with h0 | h0
    · exact .inl h0
    · exact .inr (.inl (by simp only; omega))

theorem of_some' {P : State → Prop} {x : State × List Event} {s' : State} {es : List Event} (hs : some x = some (s', es)) (h : P x.1) : P s' := by
  cases hs; exact h

theorem live_step {s s' : State} {l : Label} {es : List Event} {o : Own} (hr : Rel s o) (h : Live s) (hs : step s l = some (s', es)) : Live s' := by
  have hsane := sane hr
  cases l with
  | call t c =>
    simp only [step] at hs
    split at hs
    · rename_i hc
      cases hs
      refine h.move (q := .start c) hc.2.1 rfl rfl (.inr hc.1) hc.2.2 ?_ ?_ h.l3 ?_
      · simp [slpS, relEx, relUn]
      · simp [slpX, relEx]
      · intro hf
        exact .inr (.inr (.inr ⟨hf, by simp [slpX], rfl, by simp [relEx]⟩))
    · cases hs
  | load t =>
    simp only [step] at hs
    split at hs
    · rename_i c hp
      refine of_some' hs ?_
      have hl := h.st t
      rw [hp] at hl
      refine live_decide h hsane hp (by simp) ?_ ?_ rfl rfl ?_
      · cases c <;> simp_all [slpS, fromCall, Code.callable]
      · cases c <;> simp_all [slpX, fromCall, Code.callable]
      · cases c <;> simp_all [trying]
    · cases hs
  | cas t =>
    simp only [step] at hs
    split at hs
    · rename_i c old hp
      split at hs
      · rename_i new k hk
        split at hs
        · rename_i hw
          subst hw
          exact of_some' hs (live_commit h hsane hp hk)
        · split at hs
          · rename_i hm
            have hc : c = .lockExpired := by cases c <;> simp_all [mustNotify]
            subst hc
            cases hs
            refine h.move (q := .releasing 0 1 0 (some (.lockExpired, s.word))) hp rfl rfl (.inl (by simp)) rfl ?_ ?_ h.l3 ?_
            · simp [slpS, relEx, relUn]
            · simp [slpX, relEx]
            · intro hf
              exact .inr (.inr (.inr ⟨hf, by simp [slpX], rfl, by simp [relEx]⟩))
          · refine of_some' hs (live_decide h hsane hp (by simp) ?_ ?_ rfl rfl ?_)
            · cases c <;> simp [slpS]
            · cases c <;> simp [slpX]
            · cases c <;> simp [trying]
      · cases hs
    · cases hs
  | wake t =>
    simp only [step] at hs
    split at hs
    · rename_i c old hp
      split at hs
      · split at hs
        · rename_i b hg
          cases hs
          refine h.move (q := .start (.lock b)) hp rfl rfl (.inl (by simp)) rfl ?_ ?_ h.l3 ?_
          · simp [slpS, relEx, relUn]; omega
          · simp [slpX, relEx]; omega
          · intro hf
            exact .inr (.inr (.inl rfl))
        · cases hs
      · rename_i hne
        split at hs
        · rename_i hg
          cases hs
          have hc : slpS (.waiting c old) = 1 ∧ slpX (.waiting c old) = 0 := by cases c <;> simp_all [slpS, slpX]
          refine h.move (q := .start c) hp rfl rfl (.inl (by simp)) (by have := h.st t; rwa [hp] at this) ?_ ?_ h.l3 ?_
          · rw [hc.1]; simp [slpS, relEx, relUn]; omega
          · simp [slpX, relEx]
          · intro hf
            exact .inr (.inr (.inr ⟨hf, by simp [slpX], rfl, by simp [relEx]⟩))
        · cases hs
    · rename_i hp
      split at hs
      · cases hs
        refine h.move (q := .idle) hp rfl rfl (.inl (by simp)) rfl ?_ ?_ h.l3 ?_
        · simp [slpS, relEx, relUn]
        · simp [slpX, relEx]
        · intro hf
          exact .inr (.inr (.inr ⟨hf, by simp [slpX], rfl, by simp [relEx]⟩))
      · cases hs
    · cases hs
  | timeout t =>
    simp only [step] at hs
    split at hs
    · rename_i old hp
      exact of_some' hs (live_decide_old h (.inl rfl) hp (by simp) rfl rfl rfl rfl rfl)
    · rename_i old hp
      have := hr.pcs.late t
      rw [hp] at this
      exact of_some' hs (live_decide_old h (.inr ⟨rfl, this⟩) hp (by simp) rfl rfl rfl rfl rfl)
    · cases hs
  | release t =>
    simp only [step] at hs
    split at hs
    · rename_i ex un up k hp
      have hl := hr.pcs.late t
      rw [hp] at hl
      have hx : ∀ a b c, slpX (.releasing a b c k) = slpX (.releasing ex un up k) := by
        intro a b c
        cases k with
        | none => rfl
        | some q =>
          obtain ⟨c, w⟩ := q
          simp only [Late] at hl
          subst hl
          rfl
      split at hs
      · cases hs
        refine h.move (q := .releasing 0 un up k) hp rfl rfl (.inl (by simp)) rfl ?_ ?_ h.l3 ?_
        · simp [slpS, relEx, relUn]
        · rw [hx 0 un up]; simp [relEx]; omega
        · intro hf
          exact .inr (.inr (.inr ⟨hf, by rw [hx 0 un up]; omega, rfl, by simp [relEx]⟩))
      · split at hs
        · cases hs
          refine h.move (q := .releasing 0 0 up k) hp rfl rfl (.inl (by simp)) rfl ?_ ?_ h.l3 ?_
          · simp [slpS, relEx, relUn]; omega
          · rw [hx 0 0 up]; simp [relEx]; omega
          · intro hf
            exact .inr (.inr (.inr ⟨hf, by rw [hx 0 0 up]; omega, rfl, by simp [relEx]; omega⟩))
        · split at hs
          · cases hs
            refine h.move (q := .releasing 0 0 0 k) hp rfl rfl (.inl (by simp)) rfl ?_ ?_ h.l3 ?_
            · simp [slpS, relEx, relUn]; omega
            · rw [hx 0 0 0]; simp [relEx]; omega
            · intro hf
              exact .inr (.inr (.inr ⟨hf, by rw [hx 0 0 0]; omega, rfl, by simp [relEx]; omega⟩))
          · have he : ex = 0 := by omega
            have hn : un = 0 := by omega
            have hu : up = 0 := by omega
            subst he hn hu
            split at hs
            · cases hs
              refine h.move (q := .idle) hp rfl rfl (.inl (by simp)) rfl ?_ ?_ h.l3 ?_
              · simp [slpS, relEx, relUn]
              · simp [slpX, relEx]
              · intro hf
                exact .inr (.inr (.inr ⟨hf, by simp [slpX], rfl, by simp [relEx]⟩))
            · rename_i c w
              simp only [Late] at hl
              subst hl
              exact of_some' hs (live_decide_old h (.inl rfl) hp (by simp) rfl rfl rfl rfl rfl)
    · cases hs

theorem live {threads : Nat} {ls : List Label} {s : State} {es : List Event} {o : Own} (h : run step (init threads) ls = some (s, es)) (ho : specState next free es = some o) : Rel s o ∧ Live s :=
  simulation_state (fun s o => Rel s o ∧ Live s) (fun _ _ _ _ _ hr hs => Follows.and (sim_step hr.1 hs) (live_step hr.1 hr.2 hs)) ⟨rel_init threads, live_init threads⟩ h ho

end Verif.WinSharedMutex
