import Verif.TaskRegion.Sim
/-!
# Task regions: completion
-/
set_option linter.unusedSimpArgs false
set_option linter.unusedVariables false

namespace Verif.TaskRegion

/-! ## Sums -/

def tot (f : Nat → Nat) : Nat → Nat
  | 0 => 0
  | n + 1 => tot f n + f n

theorem tot_congr {f g : Nat → Nat} {n : Nat} (h : ∀ j, j < n → g j = f j) : tot g n = tot f n := by
  induction n with
  | zero => rfl
  | succ n ih => simp only [tot]; rw [ih (fun j hj => h j (Nat.lt_succ_of_lt hj)), h n (Nat.lt_succ_self _)]

theorem tot_lt {f g : Nat → Nat} {n i : Nat} (hi : i < n) (hlt : g i < f i) (h : ∀ j, j ≠ i → g j = f j) : tot g n < tot f n := by
  induction n with
  | zero => exact absurd hi (Nat.not_lt_zero _)
  | succ n ih =>
    simp only [tot]
    by_cases he : i = n
    · subst he
      rw [tot_congr (fun j hj => h j (Nat.ne_of_lt hj))]
      omega
    · have := ih (by omega)
      rw [h n (fun e => he e.symm)]
      omega

theorem tot_pos {f : Nat → Nat} {n : Nat} (h : 0 < tot f n) : ∃ i, i < n ∧ 0 < f i := by
  induction n with
  | zero => exact absurd h (Nat.lt_irrefl _)
  | succ n ih =>
    simp only [tot] at h
    by_cases h0 : 0 < f n
    · exact ⟨n, Nat.lt_succ_self _, h0⟩
    · obtain ⟨i, hi, hf⟩ := ih (by omega)
      exact ⟨i, Nat.lt_succ_of_lt hi, hf⟩

theorem tot_zero {f : Nat → Nat} {n : Nat} (h : tot f n = 0) : ∀ i, i < n → f i = 0 := by
  induction n with
  | zero => intro i hi; exact absurd hi (Nat.not_lt_zero _)
  | succ n ih =>
    simp only [tot] at h
    intro i hi
    by_cases he : i = n
    · subst he; omega
    · exact ih (by omega) i (by omega)

def TSt.weight : TSt → Nat
  | .queued => 4
  | .running => 3
  | .thrown _ => 2
  | .failing _ => 1
  | .done _ => 0

def Phase.weight : Phase → Nat
  | .waiting => 3
  | .body => 2
  | .final => 1
  | .gone => 0

/-- How much is left to be done. -/
def work (s : St) : Nat := tot (fun t => (s.task t).st.weight) s.nt + tot (fun r => (s.reg r).phase.weight) s.nr

theorem work_task {s s' : St} (h1 : s'.nt = s.nt) (h2 : s'.nr = s.nr) {t : Nat} (ht : t < s.nt) (hlt : (s'.task t).st.weight < (s.task t).st.weight)
    (ho : ∀ u, u ≠ t → s'.task u = s.task u) (hr : ∀ r, (s'.reg r).phase = (s.reg r).phase) : work s' < work s := by
  unfold work
  rw [h1, h2]
  have e1 := tot_lt (f := fun t => (s.task t).st.weight) (g := fun t => (s'.task t).st.weight) ht hlt (fun u hu => by rw [ho u hu])
  have e2 := tot_congr (f := fun r => (s.reg r).phase.weight) (g := fun r => (s'.reg r).phase.weight) (n := s.nr) (fun r _ => by rw [hr r])
  omega

theorem work_reg {s s' : St} (h1 : s'.nt = s.nt) (h2 : s'.nr = s.nr) {r : Nat} (hr : r < s.nr) (hlt : (s'.reg r).phase.weight < (s.reg r).phase.weight)
    (ho : ∀ q, q ≠ r → s'.reg q = s.reg q) (ht : s'.task = s.task) : work s' < work s := by
  unfold work
  rw [h1, h2, ht]
  have e1 := tot_lt (f := fun r => (s.reg r).phase.weight) (g := fun r => (s'.reg r).phase.weight) hr hlt (fun u hu => by rw [ho u hu])
  omega

/-! ## The frames -/

def TSt.active : TSt → Bool
  | .running | .thrown _ | .failing _ => true
  | _ => false

structure LInv (s : St) : Prop where
  regs : ∀ r, r < s.nr → (s.reg r).phase ≠ .gone → .region r ∈ s.stack (s.reg r).owner
  frames : ∀ w r, .region r ∈ s.stack w → (s.reg r).phase ≠ .gone ∧ (s.reg r).owner = w ∧ r < s.nr
  framesT : ∀ w t, .task t ∈ s.stack w → t < s.nt ∧ w = .worker (s.task t).runner ∧ (s.task t).st.active = true
  run : ∀ t, t < s.nt → (s.task t).st.active = true → .task t ∈ s.stack (.worker (s.task t).runner)
  queue : ∀ t, t < s.nt → (s.task t).st = .queued → t ∈ s.queue
  queued : ∀ t ∈ s.queue, t < s.nt ∧ (s.task t).st = .queued
  nodupQ : s.queue.Nodup
  nodup : ∀ w, (s.stack w).Nodup
  older : ∀ w t r u, .task t ∈ s.stack w → .region r ∈ s.stack w → u ∈ (s.reg r).group → t < u
  known : ∀ r u, u ∈ (s.reg r).group → u < s.nt
  unborn : ∀ r, s.nr ≤ r → (s.reg r).group = []

theorem linv_init (limit : Option Nat) : LInv (init limit) := by
  refine ⟨?_, ?_, ?_, ?_, ?_, ?_, ?_, ?_, ?_, ?_, ?_⟩ <;> simp [init]

theorem LInv.setR {s : St} (h : LInv s) {r : Nat} {x : Reg} (hg : x.group = (s.reg r).group) (ho : x.owner = (s.reg r).owner)
    (hp : x.phase = .gone ↔ (s.reg r).phase = .gone) : LInv (s.setR r x) := by
  have e : ∀ q, ((s.setR r x).reg q).group = (s.reg q).group ∧ ((s.setR r x).reg q).owner = (s.reg q).owner ∧
      (((s.setR r x).reg q).phase = .gone ↔ (s.reg q).phase = .gone) := by
    intro q
    by_cases hq : q = r
    · subst hq; simp only [St.setR, upd_same]; exact ⟨hg, ho, hp⟩
    · simp only [St.setR, upd_other _ _ hq]; exact ⟨trivial, trivial, trivial⟩
  refine ⟨?_, ?_, h.framesT, h.run, h.queue, h.queued, h.nodupQ, h.nodup, ?_, ?_, ?_⟩
  · intro q hq h1; rw [(e q).2.1]; exact h.regs q hq (fun h2 => h1 ((e q).2.2.2 h2))
  · intro w q hq
    obtain ⟨h1, h2, h3⟩ := h.frames w q hq
    exact ⟨fun h4 => h1 ((e q).2.2.1 h4), by rw [(e q).2.1]; exact h2, h3⟩
  · intro w t q u h1 h2 h3; rw [(e q).1] at h3; exact h.older w t q u h1 h2 h3
  · intro q u hu; rw [(e q).1] at hu; exact h.known q u hu
  · intro q hq; rw [(e q).1]; exact h.unborn q hq

/-- A task that is executed changes its state and is still executed. -/
theorem LInv.setT {s : St} (h : LInv s) {t : Nat} {x : TSt} (h0 : (s.task t).st.active = true) (hx : x.active = true) : LInv (s.setT t x) := by
  have e : ∀ u, ((s.setT t x).task u).runner = (s.task u).runner ∧ ((s.setT t x).task u).st.active = (s.task u).st.active ∧
      (((s.setT t x).task u).st = .queued ↔ (s.task u).st = .queued) := by
    intro u
    by_cases hu : u = t
    · subst hu
      simp only [St.setT, upd_same]
      refine ⟨trivial, by rw [hx, h0], ?_⟩
      constructor
      · intro h1; rw [h1] at hx; cases hx
      · intro h1; rw [h1] at h0; cases h0
    · simp only [St.setT, upd_other _ _ hu]; exact ⟨trivial, trivial, trivial⟩
  refine ⟨h.regs, h.frames, ?_, ?_, ?_, ?_, h.nodupQ, h.nodup, h.older, h.known, h.unborn⟩
  · intro w u hu
    rw [(e u).1, (e u).2.1]; exact h.framesT w u hu
  · intro u hu h1
    rw [(e u).2.1] at h1
    rw [(e u).1]; exact h.run u hu h1
  · intro u hu h1; exact h.queue u hu ((e u).2.2.1 h1)
  · intro u hu
    have := h.queued u hu
    exact ⟨this.1, (e u).2.2.2 this.2⟩

/-- A task has ended. -/
theorem LInv.pop {s : St} (h : LInv s) {t : Nat} {w : Who} {rest : List Frame} {o : Option Exc} (hl : s.stack w = .task t :: rest) :
    LInv ((s.setT t (.done o)).setS w rest) := by
  have hm : Frame.task t ∈ s.stack w := by rw [hl]; exact List.mem_cons_self ..
  obtain ⟨hlt, hw, ha⟩ := h.framesT w t hm
  have hnd := h.nodup w
  rw [hl] at hnd
  have hnd' := List.nodup_cons.1 hnd
  have sub : ∀ v f, f ∈ ((s.setT t (.done o)).setS w rest).stack v → f ∈ s.stack v := by
    intro v f hf
    by_cases hv : v = w
    · subst hv
      have : f ∈ rest := by simpa [St.setS] using hf
      rw [hl]; exact List.mem_cons_of_mem _ this
    · have h1 : f ∈ updW s.stack w rest v := hf
      rw [updW_other _ _ hv] at h1; exact h1
  have e1 : ∀ u, u ≠ t → ((s.setT t (.done o)).setS w rest).task u = s.task u := fun u hu => upd_other _ _ hu
  have e2 : (((s.setT t (.done o)).setS w rest).task t).st = .done o := by simp [St.setS, St.setT]
  have ne : ∀ v u, Frame.task u ∈ ((s.setT t (.done o)).setS w rest).stack v → u ≠ t := by
    intro v u hu he
    subst he
    have hv := (h.framesT v u (sub v _ hu)).2.1
    rw [← hw] at hv
    subst hv
    have : Frame.task u ∈ rest := by simpa [St.setS] using hu
    exact hnd'.1 this
  refine ⟨?_, ?_, ?_, ?_, ?_, ?_, h.nodupQ, ?_, ?_, h.known, h.unborn⟩
  · intro r hr h1
    have := h.regs r hr h1
    show _ ∈ updW s.stack w rest (s.reg r).owner
    by_cases hv : (s.reg r).owner = w
    · rw [hv, updW_same]
      rw [hv, hl] at this
      rcases List.mem_cons.1 this with h2 | h2
      · cases h2
      · exact h2
    · rw [updW_other _ _ hv]; exact this
  · intro v r hr; exact h.frames v r (sub v _ hr)
  · intro v u hu
    rw [e1 u (ne v u hu)]; exact h.framesT v u (sub v _ hu)
  · intro u hu h1
    have hne : u ≠ t := by intro he; subst he; rw [e2] at h1; cases h1
    rw [e1 u hne] at h1 ⊢
    have := h.run u hu h1
    show _ ∈ updW s.stack w rest _
    by_cases hv : Who.worker (s.task u).runner = w
    · rw [hv, updW_same]
      rw [hv, hl] at this
      rcases List.mem_cons.1 this with h2 | h2
      · cases h2; exact absurd rfl hne
      · exact h2
    · rw [updW_other _ _ hv]; exact this
  · intro u hu h1
    have hne : u ≠ t := by intro he; subst he; rw [e2] at h1; cases h1
    rw [e1 u hne] at h1
    exact h.queue u hu h1
  · intro u hu
    have := h.queued u hu
    have hne : u ≠ t := by intro he; subst he; rw [this.2] at ha; cases ha
    rw [e1 u hne]; exact this
  · intro v
    by_cases hv : v = w
    · subst hv; simp only [St.setS, updW_same]; exact hnd'.2
    · simp only [St.setS, updW_other _ _ hv]; exact h.nodup v
  · intro v u r x h1 h2 h3; exact h.older v u r x (sub v _ h1) (sub v _ h2) h3

/-- A region has ended. -/
theorem LInv.close {s : St} (h : LInv s) {r : Nat} {w : Who} {rest : List Frame} {exs : List Nat} (hl : s.stack w = .region r :: rest) :
    LInv ((s.setR r { s.reg r with phase := .gone, exs := exs }).setS w rest) := by
  have hm : Frame.region r ∈ s.stack w := by rw [hl]; exact List.mem_cons_self ..
  obtain ⟨hp, hw, hlt⟩ := h.frames w r hm
  have hnd := h.nodup w
  rw [hl] at hnd
  have hnd' := List.nodup_cons.1 hnd
  have sub : ∀ v f, f ∈ updW s.stack w rest v → f ∈ s.stack v := by
    intro v f hf
    by_cases hv : v = w
    · subst hv
      have : f ∈ rest := by simpa using hf
      rw [hl]; exact List.mem_cons_of_mem _ this
    · simpa only [updW_other _ _ hv] using hf
  have e1 : ∀ q, q ≠ r → upd s.reg r { s.reg r with phase := .gone, exs := exs } q = s.reg q := fun q hq => upd_other _ _ hq
  have eg : ∀ q, (upd s.reg r { s.reg r with phase := .gone, exs := exs } q).group = (s.reg q).group := by
    intro q
    by_cases hq : q = r
    · subst hq; simp
    · rw [e1 q hq]
  have ne : ∀ v q, Frame.region q ∈ updW s.stack w rest v → q ≠ r := by
    intro v q hq he
    subst he
    have hv := (h.frames v q (sub v _ hq)).2.1
    rw [hw] at hv
    subst hv
    have : Frame.region q ∈ rest := by simpa using hq
    exact hnd'.1 this
  refine ⟨?_, ?_, ?_, ?_, h.queue, h.queued, h.nodupQ, ?_, ?_, ?_, ?_⟩
  · intro q hq h1
    simp only [St.setS, St.setR] at h1 ⊢
    have hne : q ≠ r := by intro he; subst he; simp at h1
    rw [e1 q hne] at h1 ⊢
    have := h.regs q hq h1
    by_cases hv : (s.reg q).owner = w
    · rw [hv, updW_same]
      rw [hv, hl] at this
      rcases List.mem_cons.1 this with h2 | h2
      · cases h2; exact absurd rfl hne
      · exact h2
    · rw [updW_other _ _ hv]; exact this
  · intro v q hq
    simp only [St.setS, St.setR] at hq ⊢
    rw [e1 q (ne v q hq)]; exact h.frames v q (sub v _ hq)
  · intro v u hu; exact h.framesT v u (sub v _ hu)
  · intro u hu h1
    have := h.run u hu h1
    simp only [St.setS, St.setR]
    by_cases hv : Who.worker (s.task u).runner = w
    · rw [hv, updW_same]
      rw [hv, hl] at this
      rcases List.mem_cons.1 this with h2 | h2
      · cases h2
      · exact h2
    · rw [updW_other _ _ hv]; exact this
  · intro v
    by_cases hv : v = w
    · subst hv; simp only [St.setS, St.setR, updW_same]; exact hnd'.2
    · simp only [St.setS, St.setR, updW_other _ _ hv]; exact h.nodup v
  · intro v u q x h1 h2 h3
    simp only [St.setS, St.setR] at h1 h2 h3
    rw [eg] at h3
    exact h.older v u q x (sub v _ h1) (sub v _ h2) h3
  · intro q u hu; simp only [St.setS, St.setR] at hu; rw [eg] at hu; exact h.known q u hu
  · intro q hq; simp only [St.setS, St.setR]; rw [eg]; exact h.unborn q hq

theorem LInv.opened {s : St} (h : LInv s) (w : Who) :
    LInv { s.setR s.nr { owner := w, phase := .body } with nr := s.nr + 1, stack := updW s.stack w (.region s.nr :: s.stack w) } := by
  have e1 : ∀ q, q ≠ s.nr → upd s.reg s.nr { owner := w, phase := .body } q = s.reg q := fun q hq => upd_other _ _ hq
  have eg : ∀ q, (upd s.reg s.nr { owner := w, phase := .body } q).group = (s.reg q).group := by
    intro q
    by_cases hq : q = s.nr
    · subst hq; simp [h.unborn s.nr (Nat.le_refl _)]
    · rw [e1 q hq]
  have old : ∀ v q, Frame.region q ∈ s.stack v → q ≠ s.nr := fun v q hq => Nat.ne_of_lt (h.frames v q hq).2.2
  have sub : ∀ v f, f ∈ updW s.stack w (.region s.nr :: s.stack w) v → f ∈ s.stack v ∨ (f = .region s.nr ∧ v = w) := by
    intro v f hf
    by_cases hv : v = w
    · subst hv
      rw [updW_same] at hf
      rcases List.mem_cons.1 hf with h1 | h1
      · exact Or.inr ⟨h1, rfl⟩
      · exact Or.inl h1
    · rw [updW_other _ _ hv] at hf; exact Or.inl hf
  have sup : ∀ v f, f ∈ s.stack v → f ∈ updW s.stack w (.region s.nr :: s.stack w) v := by
    intro v f hf
    by_cases hv : v = w
    · subst hv; rw [updW_same]; exact List.mem_cons_of_mem _ hf
    · rw [updW_other _ _ hv]; exact hf
  refine ⟨?_, ?_, ?_, ?_, h.queue, h.queued, h.nodupQ, ?_, ?_, ?_, ?_⟩
  · intro q hq h1
    simp only [St.setR] at hq h1 ⊢
    by_cases hn : q = s.nr
    · subst hn; simp only [upd_same, updW_same]; exact List.mem_cons_self ..
    · rw [e1 q hn] at h1 ⊢; exact sup _ _ (h.regs q (by omega) h1)
  · intro v q hq
    simp only [St.setR] at hq ⊢
    rcases sub v _ hq with h1 | ⟨h1, h2⟩
    · rw [e1 q (old v q h1)]
      obtain ⟨a, b, c⟩ := h.frames v q h1
      exact ⟨a, b, Nat.lt_succ_of_lt c⟩
    · cases h1; subst h2; simp only [upd_same]; exact ⟨by simp, trivial, Nat.lt_succ_self _⟩
  · intro v u hu
    simp only [St.setR] at hu ⊢
    rcases sub v _ hu with h1 | ⟨h1, h2⟩
    · exact h.framesT v u h1
    · cases h1
  · intro u hu h1; exact sup _ _ (h.run u hu h1)
  · intro v
    simp only [St.setR]
    by_cases hv : v = w
    · subst hv; rw [updW_same]; exact List.nodup_cons.2 ⟨fun hm => old _ _ hm rfl, h.nodup v⟩
    · rw [updW_other _ _ hv]; exact h.nodup v
  · intro v u q x h1 h2 h3
    simp only [St.setR] at h1 h2 h3
    rw [eg] at h3
    rcases sub v _ h1 with h1 | ⟨h1, -⟩
    · rcases sub v _ h2 with h2 | ⟨h2, -⟩
      · exact h.older v u q x h1 h2 h3
      · cases h2; rw [h.unborn s.nr (Nat.le_refl _)] at h3; cases h3
    · cases h1
  · intro q u hu; simp only [St.setR] at hu; rw [eg] at hu; exact h.known q u hu
  · intro q hq
    simp only [St.setR] at hq ⊢
    rw [eg]; exact h.unborn q (Nat.le_of_succ_le hq)

theorem LInv.ran {s : St} (h : LInv s) {r : Nat} (hr : r < s.nr) :
    LInv ({ s with nt := s.nt + 1, queue := s.queue ++ [s.nt], task := upd s.task s.nt { reg := r } : St}.setR r { s.reg r with group := (s.reg r).group ++ [s.nt] }) := by
  have et : ∀ u, u < s.nt → upd s.task s.nt { reg := r } u = s.task u := fun u hu => upd_other _ _ (Nat.ne_of_lt hu)
  have er : ∀ q, (upd s.reg r { s.reg r with group := (s.reg r).group ++ [s.nt] } q).phase = (s.reg q).phase ∧
      (upd s.reg r { s.reg r with group := (s.reg r).group ++ [s.nt] } q).owner = (s.reg q).owner := by
    intro q
    by_cases hq : q = r
    · subst hq; simp
    · rw [upd_other _ _ hq]; exact ⟨rfl, rfl⟩
  have eg : ∀ q u, u ∈ (upd s.reg r { s.reg r with group := (s.reg r).group ++ [s.nt] } q).group → u ∈ (s.reg q).group ∨ u = s.nt := by
    intro q u hu
    by_cases hq : q = r
    · subst hq; simpa using hu
    · rw [upd_other _ _ hq] at hu; exact Or.inl hu
  refine ⟨?_, ?_, ?_, ?_, ?_, ?_, ?_, h.nodup, ?_, ?_, ?_⟩
  · intro q hq h1
    simp only [St.setR] at h1 ⊢
    rw [(er q).1] at h1
    rw [(er q).2]; exact h.regs q hq h1
  · intro v q hq
    simp only [St.setR]
    rw [(er q).1, (er q).2]; exact h.frames v q hq
  · intro v u hu
    have := h.framesT v u hu
    simp only [St.setR]
    rw [et u this.1]
    exact ⟨Nat.lt_succ_of_lt this.1, this.2⟩
  · intro u hu h1
    simp only [St.setR] at hu h1 ⊢
    by_cases hn : u = s.nt
    · subst hn; simp [TSt.active] at h1
    · rw [et u (by omega)] at h1 ⊢; exact h.run u (by omega) h1
  · intro u hu h1
    simp only [St.setR] at hu h1 ⊢
    by_cases hn : u = s.nt
    · subst hn; simp
    · rw [et u (by omega)] at h1; exact List.mem_append_left _ (h.queue u (by omega) h1)
  · intro u hu
    simp only [St.setR] at hu ⊢
    rcases List.mem_append.1 hu with hu | hu
    · have := h.queued u hu; rw [et u this.1]; exact ⟨Nat.lt_succ_of_lt this.1, this.2⟩
    · simp only [List.mem_singleton] at hu; subst hu; simp
  · simp only [St.setR]
    refine List.nodup_append.2 ⟨h.nodupQ, by simp, ?_⟩
    intro a ha b hb
    simp only [List.mem_singleton] at hb
    subst hb
    exact Nat.ne_of_lt (h.queued a ha).1
  · intro v u q x h1 h2 h3
    simp only [St.setR] at h1 h2 h3
    rcases eg q x h3 with h3 | h3
    · exact h.older v u q x h1 h2 h3
    · subst h3; exact (h.framesT v u h1).1
  · intro q u hu
    simp only [St.setR] at hu ⊢
    rcases eg q u hu with h1 | h1
    · exact Nat.lt_succ_of_lt (h.known q u h1)
    · subst h1; exact Nat.lt_succ_self _
  · intro q hq
    simp only [St.setR] at hq ⊢
    rw [upd_other _ _ (by omega)]; exact h.unborn q hq

theorem LInv.started {s : St} (h : LInv s) {t i : Nat} {q : List Nat} (hq : s.queue = t :: q) (hs : s.stack (.worker i) = []) :
    LInv { s with queue := q, task := upd s.task t { s.task t with st := .running, runner := i }, stack := updW s.stack (.worker i) [.task t] } := by
  have hqt := h.queued t (by rw [hq]; exact List.mem_cons_self ..)
  have hnd := h.nodupQ
  rw [hq] at hnd
  have hnd' := List.nodup_cons.1 hnd
  have et : ∀ u, u ≠ t → upd s.task t { s.task t with st := .running, runner := i } u = s.task u := fun u hu => upd_other _ _ hu
  have sub : ∀ v f, f ∈ updW s.stack (.worker i) [.task t] v → f ∈ s.stack v ∨ (f = .task t ∧ v = .worker i) := by
    intro v f hf
    by_cases hv : v = .worker i
    · subst hv; rw [updW_same] at hf; simp only [List.mem_singleton] at hf; exact Or.inr ⟨hf, rfl⟩
    · rw [updW_other _ _ hv] at hf; exact Or.inl hf
  have sup : ∀ v f, f ∈ s.stack v → f ∈ updW s.stack (.worker i) [.task t] v := by
    intro v f hf
    have hv : v ≠ .worker i := by intro he; subst he; rw [hs] at hf; cases hf
    rw [updW_other _ _ hv]; exact hf
  have nt : ∀ v, Frame.task t ∉ s.stack v := by
    intro v hm
    have := (h.framesT v t hm).2.2
    rw [hqt.2] at this; cases this
  refine ⟨?_, ?_, ?_, ?_, ?_, ?_, hnd'.2, ?_, ?_, h.known, h.unborn⟩
  · intro r hr h1; exact sup _ _ (h.regs r hr h1)
  · intro v r hr
    rcases sub v _ hr with h1 | ⟨h1, -⟩
    · exact h.frames v r h1
    · cases h1
  · intro v u hu
    simp only at hu ⊢
    rcases sub v _ hu with h1 | ⟨h1, h2⟩
    · have hne : u ≠ t := by intro he; subst he; exact nt v h1
      rw [et u hne]; exact h.framesT v u h1
    · cases h1; subst h2; simp only [upd_same]; exact ⟨hqt.1, trivial, rfl⟩
  · intro u hu h1
    simp only at hu h1 ⊢
    by_cases hne : u = t
    · subst hne; simp only [upd_same, updW_same]; exact List.mem_cons_self ..
    · rw [et u hne] at h1 ⊢; exact sup _ _ (h.run u hu h1)
  · intro u hu h1
    simp only at hu h1 ⊢
    have hne : u ≠ t := by intro he; subst he; simp at h1
    rw [et u hne] at h1
    have := h.queue u hu h1
    rw [hq] at this
    rcases List.mem_cons.1 this with h2 | h2
    · exact absurd h2 hne
    · exact h2
  · intro u hu
    simp only at hu ⊢
    have hne : u ≠ t := by intro he; subst he; exact hnd'.1 hu
    rw [et u hne]
    exact h.queued u (by rw [hq]; exact List.mem_cons_of_mem _ hu)
  · intro v
    by_cases hv : v = .worker i
    · subst hv; simp
    · simp only [updW_other _ _ hv]; exact h.nodup v
  · intro v u r x h1 h2 h3
    simp only at h1 h2 h3
    rcases sub v _ h1 with h1 | ⟨h1, h4⟩
    · rcases sub v _ h2 with h2 | ⟨h2, -⟩
      · exact h.older v u r x h1 h2 h3
      · cases h2
    · rcases sub v _ h2 with h2 | ⟨h2, -⟩
      · subst h4; rw [hs] at h2; cases h2
      · cases h2

/-- The steps that the property is about. -/
def stepPlain (s : St) (l : Label) : Option (St × List Event) := if plain s l then step s l else none

theorem of_plain {s : St} {l : Label} {x : St × List Event} (h : stepPlain s l = some x) : plain s l = true ∧ step s l = some x := by
  unfold stepPlain at h
  split at h
  · rename_i hp; exact ⟨hp, h⟩
  · cases h

theorem linv_step {s s' : St} {l : Label} {es : List Event} (h : LInv s) (hP : plain s l = true) (hs : step s l = some (s', es)) : LInv s' := by
  cases l with
  | «open» w => simp only [step] at hs; split at hs <;> cases hs; exact h.opened w
  | run w refused =>
    simp only [step, stepRun] at hs
    split at hs
    · rename_i r hb
      obtain ⟨⟨l, hl⟩, hp⟩ := body_some hb
      split at hs
      · cases hs; exact h
      · split at hs
        · cases hs; exact h
        · cases hs; exact h.ran (h.frames w r (by rw [hl]; exact List.mem_cons_self ..)).2.2
    · cases hs
  | runNoMemory w => cases hP
  | wait w =>
    simp only [step, stepWait] at hs
    split at hs
    · rename_i r hb
      obtain ⟨⟨l, hl⟩, hp⟩ := body_some hb
      split at hs
      · cases hs; exact h
      · cases hs; exact h.setR rfl rfl (by rw [hp]; simp)
    · cases hs
  | go w =>
    simp only [step, stepGo] at hs
    split at hs
    · rename_i r rest hl
      split at hs
      · split at hs
        · rename_i hp; cases hs; exact h.setR rfl rfl (by rw [hp]; simp)
        · rename_i hp; cases hs; exact h.close hl
        · cases hs
      · cases hs
    · cases hs
  | interrupt w =>
    simp only [step, stepInterrupt] at hs
    split at hs
    · rename_i r rest hl
      simp only [plain, hl] at hP
      split at hs
      · cases hs
      · split at hs
        · rename_i hp; cases hs; exact h.setR rfl rfl (by rw [hp]; simp)
        · rename_i hp; simp [hp] at hP
        · cases hs
    · cases hs
  | leave w o =>
    simp only [step, stepLeave] at hs
    split at hs
    · rename_i r hb
      obtain ⟨⟨l, hl⟩, hp⟩ := body_some hb
      cases hs; exact h.setR rfl rfl (by rw [hp]; simp)
    · cases hs
  | start i =>
    simp only [step, stepStart] at hs
    split at hs
    · rename_i hc
      split at hs
      · rename_i t q hq; cases hs; exact h.started hq hc.2
      · cases hs
    · cases hs
  | body w o =>
    simp only [step, stepBody] at hs
    split at hs
    · rename_i t rest hl
      split at hs
      · rename_i hst
        split at hs
        · cases hs; exact h.pop hl
        · cases hs; exact h.setT (by rw [hst]; rfl) rfl
      · cases hs
    · cases hs
  | cancel w =>
    simp only [step, stepCancel] at hs
    split at hs
    · rename_i t ht
      split at hs
      · rename_i e hst
        split at hs
        · cases hs; exact h.setT (by rw [hst]; rfl) rfl
        · cases hs
          exact (h.setT (x := .failing e) (by rw [hst]; rfl) rfl).setR rfl rfl Iff.rfl
      · cases hs
    · cases hs
  | ready w =>
    simp only [step, stepReady] at hs
    split at hs
    · rename_i t rest hl
      split at hs
      · cases hs; exact h.pop hl
      · cases hs
    · cases hs

/-! ## Progress -/

/-- Nothing new is begun: functions return, the executor works, waits end. -/
def Winds : Label → Prop
  | .go _ | .start _ | .cancel _ | .ready _ => True
  | .leave _ o => o = none
  | .body _ o => o = none
  | _ => False

theorem Winds.plain {s : St} {l : Label} (h : Winds l) : plain s l = true := by cases l <;> first | rfl | exact h.elim

/-- If there is a task in the queue, some thread of the executor can take it or is executing a task's function. -/
def Free (s : St) : Prop := s.queue ≠ [] → (∃ i, s.works i = true ∧ s.stack (.worker i) = []) ∨ ∃ w t l, s.stack w = .task t :: l

/-- The task that is executed by a thread goes on. -/
theorem task_goes {s : St} (h : LInv s) {w : Who} {t : Nat} {rest : List Frame} (hl : s.stack w = .task t :: rest) :
    ∃ l s' es, Winds l ∧ step s l = some (s', es) ∧ work s' < work s := by
  obtain ⟨hlt, -, ha⟩ := h.framesT w t (by rw [hl]; exact List.mem_cons_self ..)
  have e1 : ∀ x u, u ≠ t → (s.setT t x).task u = s.task u := fun x u hu => upd_other _ _ hu
  have e2 : ∀ x, ((s.setT t x).task t).st = x := fun x => by simp [St.setT]
  cases hst : (s.task t).st with
  | queued => rw [hst] at ha; cases ha
  | done o => rw [hst] at ha; cases ha
  | running =>
    refine ⟨.body w none, (s.setT t (.done none)).setS w rest, [.ended t none], rfl, by simp [step, stepBody, hl, hst], ?_⟩
    exact work_task (s' := (s.setT t (.done none)).setS w rest) rfl rfl hlt (by show ((s.setT t _).task t).st.weight < _; rw [e2, hst]; simp [TSt.weight]) (e1 _)
      (fun _ => rfl)
  | thrown e =>
    by_cases hg : (s.reg (s.task t).reg).phase = .gone
    · refine ⟨.cancel w, s.setT t (.failing e), [.dangling t], trivial, by simp [step, stepCancel, St.task?, hl, hst, hg], ?_⟩
      exact work_task rfl rfl hlt (by rw [e2, hst]; simp [TSt.weight]) (e1 _) (fun _ => rfl)
    · refine ⟨.cancel w, (s.setT t (.failing e)).setR (s.task t).reg { s.reg (s.task t).reg with canceled := true }, [], trivial,
        by simp [step, stepCancel, St.task?, hl, hst, hg], ?_⟩
      refine work_task (s' := (s.setT t (.failing e)).setR (s.task t).reg { s.reg (s.task t).reg with canceled := true }) rfl rfl hlt
        (by show ((s.setT t _).task t).st.weight < _; rw [e2, hst]; simp [TSt.weight]) (e1 _) (fun r => ?_)
      by_cases hr : r = (s.task t).reg
      · subst hr; simp [St.setR, St.setT]
      · simp only [St.setR, upd_other _ _ hr]; rfl
  | failing e =>
    refine ⟨.ready w, (s.setT t (.done (some e))).setS w rest, [], trivial, by simp [step, stepReady, hl, hst], ?_⟩
    exact work_task (s' := (s.setT t (.done (some e))).setS w rest) rfl rfl hlt (by show ((s.setT t _).task t).st.weight < _; rw [e2, hst]; simp [TSt.weight]) (e1 _)
      (fun _ => rfl)

/-- A call of `task_region` goes on if all its tasks are done. -/
theorem region_goes {s : St} (h : LInv s) {w : Who} {r : Nat} {rest : List Frame} (hl : s.stack w = .region r :: rest)
    (hd : ∀ t ∈ (s.reg r).group, (s.task t).st.isDone = true) : ∃ l s' es, Winds l ∧ step s l = some (s', es) ∧ work s' < work s := by
  obtain ⟨hp, -, hlt⟩ := h.frames w r (by rw [hl]; exact List.mem_cons_self ..)
  have hall : s.allDone r = true := List.all_eq_true.2 hd
  have e1 : ∀ x q, q ≠ r → (s.setR r x).reg q = s.reg q := fun x q hq => upd_other _ _ hq
  have e2 : ∀ x, (s.setR r x).reg r = x := fun x => by simp [St.setR]
  cases hph : (s.reg r).phase with
  | gone => exact absurd hph hp
  | body =>
    refine ⟨.leave w none, s.setR r { s.reg r with phase := .final, exs := caught (s.reg r).exs none }, [.left w r none], rfl, ?_, ?_⟩
    · simp [step, stepLeave, St.body?, hl, hph]
    · exact work_reg rfl rfl hlt (by rw [e2, hph]; simp [Phase.weight]) (e1 _) rfl
  | waiting =>
    refine ⟨.go w, s.setR r { s.reg r with phase := .body, exs := collect s.task (s.reg r).exs (s.reg r).group },
      [if collect s.task (s.reg r).exs (s.reg r).group = [] then .waited w r else .waitThrew w r (collect s.task (s.reg r).exs (s.reg r).group)], trivial, ?_, ?_⟩
    · simp only [step, stepGo, hl, hall, if_true, hph]
    · exact work_reg rfl rfl hlt (by rw [e2, hph]; simp [Phase.weight]) (e1 _) rfl
  | final =>
    refine ⟨.go w, (s.setR r { s.reg r with phase := .gone, exs := collect s.task (s.reg r).exs (s.reg r).group }).setS w rest,
      [.closed w r (collect s.task (s.reg r).exs (s.reg r).group)], trivial, ?_, ?_⟩
    · simp only [step, stepGo, hl, hall, if_true, hph]
    · exact work_reg (s' := (s.setR r _).setS w rest) rfl rfl hlt (by show ((s.setR r _).reg r).phase.weight < _; rw [e2, hph]; simp [Phase.weight]) (e1 _) rfl

theorem exists_max {P : Nat → Prop} {n : Nat} (h : ∃ i, i < n ∧ P i) : ∃ i, i < n ∧ P i ∧ ∀ j, j < n → P j → j ≤ i := by
  classical
  induction n with
  | zero => obtain ⟨i, hi, -⟩ := h; exact absurd hi (Nat.not_lt_zero _)
  | succ n ih =>
    by_cases hn : P n
    · exact ⟨n, Nat.lt_succ_self _, hn, fun j hj _ => by omega⟩
    · obtain ⟨i, hi, hp⟩ := h
      have hne : i ≠ n := fun he => hn (he ▸ hp)
      obtain ⟨k, hk, hpk, hm⟩ := ih ⟨i, by omega, hp⟩
      refine ⟨k, Nat.lt_succ_of_lt hk, hpk, fun j hj hpj => ?_⟩
      have : j ≠ n := fun he => hn (he ▸ hpj)
      exact hm j (by omega) hpj

theorem progress {s : St} (h : LInv s) (hf : Free s) (hw : 0 < work s) : ∃ l s' es, Winds l ∧ step s l = some (s', es) ∧ work s' < work s := by
  by_cases hq : s.queue = []
  · by_cases hu : ∃ t, t < s.nt ∧ (s.task t).st.isDone = false
    · -- the youngest task that is not done
      obtain ⟨t, ht, hd, hmax⟩ := exists_max hu
      have hact : (s.task t).st.active = true := by
        cases hst : (s.task t).st with
        | queued => have := h.queue t ht hst; rw [hq] at this; cases this
        | done o => rw [hst] at hd; cases hd
        | _ => rfl
      have hmem := h.run t ht hact
      cases hl : s.stack (.worker (s.task t).runner) with
      | nil => rw [hl] at hmem; cases hmem
      | cons f rest =>
        cases f with
        | task t' => exact task_goes h hl
        | region r =>
          refine region_goes h hl (fun u hu => ?_)
          have hlt := h.older _ t r u hmem (by rw [hl]; exact List.mem_cons_self ..) hu
          cases hdu : (s.task u).st.isDone with
          | true => rfl
          | false => exact absurd (hmax u (h.known r u hu) hdu) (by omega)
    · have hall : ∀ t, t < s.nt → (s.task t).st.isDone = true := by
        intro t ht
        cases hd : (s.task t).st.isDone with
        | true => rfl
        | false => exact absurd ⟨t, ht, hd⟩ hu
      have hz : tot (fun t => (s.task t).st.weight) s.nt = 0 := by
        rcases Nat.eq_zero_or_pos (tot (fun t => (s.task t).st.weight) s.nt) with h0 | h0
        · exact h0
        · obtain ⟨i, hi, hp⟩ := tot_pos h0
          have := hall i hi
          cases hst : (s.task i).st <;> rw [hst] at this hp
          case done => exact absurd hp (Nat.lt_irrefl _)
          all_goals cases this
      unfold work at hw
      rw [hz, Nat.zero_add] at hw
      obtain ⟨r, hr, hp⟩ := tot_pos hw
      have hng : (s.reg r).phase ≠ .gone := by intro he; rw [he] at hp; exact absurd hp (by decide)
      have hm := h.regs r hr hng
      cases hl : s.stack (s.reg r).owner with
      | nil => rw [hl] at hm; cases hm
      | cons f rest =>
        cases f with
        | task t' => exact task_goes h hl
        | region r' => exact region_goes h hl (fun u hu => hall u (h.known r' u hu))
  · rcases hf hq with ⟨i, hi, hs⟩ | ⟨w, t, l, hl⟩
    · cases hqq : s.queue with
      | nil => exact absurd hqq hq
      | cons t q =>
        have hqt := h.queued t (by rw [hqq]; exact List.mem_cons_self ..)
        refine ⟨.start i, { s with queue := q, task := upd s.task t { s.task t with st := .running, runner := i }, stack := updW s.stack (.worker i) [.task t] },
          [.began t], trivial, ?_, ?_⟩
        · simp only [step, stepStart, hi, hs, hqq, and_self, if_true]
        · exact work_task rfl rfl hqt.1 (by simp only [upd_same]; rw [hqt.2]; decide) (fun u hu => upd_other _ _ hu) (fun _ => rfl)
    · exact task_goes h hl

/-- Everything can be brought to an end. -/
theorem winds_down {I : St → Prop} (hI : ∀ s l s' es, I s → LInv s → Winds l → step s l = some (s', es) → I s') (hf : ∀ s, I s → LInv s → Free s) :
    ∀ n s, work s = n → LInv s → I s → ∃ ls s' es, (∀ l ∈ ls, Winds l) ∧ run step s ls = some (s', es) ∧ work s' = 0 := by
  intro n
  induction n using Nat.strongRecOn with
  | ind n ih =>
    intro s hn h hi
    by_cases h0 : n = 0
    · exact ⟨[], s, [], by simp, rfl, by omega⟩
    · obtain ⟨l, s1, es1, hw, hs, hlt⟩ := progress h (hf s hi h) (by omega)
      obtain ⟨ls, s', es, h1, h2, h3⟩ := ih (work s1) (by omega) s1 rfl (linv_step h hw.plain hs) (hI _ _ _ _ hi h hw hs)
      refine ⟨l :: ls, s', es1 ++ es, ?_, by simp [Verif.run, hs, h2], h3⟩
      intro l' hl'
      rcases List.mem_cons.1 hl' with rfl | h'
      · exact hw
      · exact h1 l' h'

/-- A region goes away only when `task_region` returns or throws. -/
theorem gone_closed {s s' : St} {l : Label} {es : List Event} {r : Nat} (hr : r < s.nr) (hw : Winds l) (hs : step s l = some (s', es))
    (h1 : (s.reg r).phase ≠ .gone) : r < s'.nr ∧ ((s'.reg r).phase ≠ .gone ∨ ∃ w x, .closed w r x ∈ es) := by
  have hset : ∀ {q : Nat} {x : Reg}, (q = r → x.phase ≠ .gone) → ((s.setR q x).reg r).phase ≠ .gone := by
    intro q x hx
    by_cases hq : r = q
    · subst hq; simp only [St.setR, upd_same]; exact hx rfl
    · simp only [St.setR, upd_other _ _ hq]; exact h1
  cases l with
  | go w =>
    simp only [step, stepGo] at hs
    split at hs
    · rename_i q rest hl
      split at hs
      · split at hs
        · cases hs; exact ⟨hr, Or.inl (hset (fun _ => by simp))⟩
        · cases hs
          by_cases hq : q = r
          · subst hq; exact ⟨hr, Or.inr ⟨w, _, List.mem_singleton.2 rfl⟩⟩
          · exact ⟨hr, Or.inl (hset (x := { s.reg q with phase := .gone, exs := _ }) (fun he => absurd he hq))⟩
        · cases hs
      · cases hs
    · cases hs
  | leave w o =>
    simp only [step, stepLeave] at hs
    split at hs
    · cases hs; exact ⟨hr, Or.inl (hset (fun _ => by simp))⟩
    · cases hs
  | start i =>
    simp only [step, stepStart] at hs
    split at hs
    · split at hs
      · cases hs; exact ⟨hr, Or.inl h1⟩
      · cases hs
    · cases hs
  | body w o =>
    simp only [step, stepBody] at hs
    split at hs
    · split at hs
      · split at hs <;> cases hs <;> exact ⟨hr, Or.inl h1⟩
      · cases hs
    · cases hs
  | cancel w =>
    simp only [step, stepCancel] at hs
    split at hs
    · rename_i t _
      split at hs
      · split at hs
        · cases hs; exact ⟨hr, Or.inl h1⟩
        · rename_i hg
          cases hs
          refine ⟨hr, Or.inl ?_⟩
          by_cases hq : r = (s.task t).reg
          · subst hq; simp only [St.setR, upd_same]; exact hg
          · simp only [St.setR, upd_other _ _ hq]; exact h1
      · cases hs
    · cases hs
  | ready w =>
    simp only [step, stepReady] at hs
    split at hs
    · split at hs
      · cases hs; exact ⟨hr, Or.inl h1⟩
      · cases hs
    · cases hs
  | _ => exact hw.elim

theorem run_closed {ls : List Label} {s s' : St} {es : List Event} {r : Nat} (hr : r < s.nr) (hw : ∀ l ∈ ls, Winds l) (hs : run step s ls = some (s', es))
    (h1 : (s.reg r).phase ≠ .gone) (h0 : work s' = 0) : ∃ w x, .closed w r x ∈ es := by
  induction ls generalizing s es with
  | nil =>
    simp only [run_nil, Option.some.injEq, Prod.mk.injEq] at hs
    obtain ⟨rfl, -⟩ := hs
    unfold work at h0
    have := tot_zero (f := fun r => (s.reg r).phase.weight) (n := s.nr) (by omega) r hr
    cases hp : (s.reg r).phase <;> rw [hp] at this h1
    case gone => exact absurd rfl h1
    all_goals cases this
  | cons l ls ih =>
    obtain ⟨m, e1, e2, h2, h3, rfl⟩ := run_cons hs
    obtain ⟨hr', h4 | ⟨w, x, h4⟩⟩ := gone_closed hr (hw l (List.mem_cons_self ..)) h2 h1
    · obtain ⟨w, x, h5⟩ := ih hr' (fun l' hl' => hw l' (List.mem_cons_of_mem _ hl')) h3 h4
      exact ⟨w, x, List.mem_append_right _ h5⟩
    · exact ⟨w, x, List.mem_append_left _ h4⟩

/-- There are no other regions. -/
theorem born_step {s s' : St} {l : Label} {es : List Event} (hi : LInv s) (h : ∀ r, s.nr ≤ r → (s.reg r).phase = .gone) (hP : plain s l = true)
    (hs : step s l = some (s', es)) : ∀ r, s'.nr ≤ r → (s'.reg r).phase = .gone := by
  have top : ∀ {w q l}, s.stack w = .region q :: l → ∀ x r, s.nr ≤ r → ((s.setR q x).reg r).phase = .gone := by
    intro w q l hl x r hr
    have hq := (hi.frames w q (by rw [hl]; exact List.mem_cons_self ..)).2.2
    simp only [St.setR, upd_other s.reg x (show r ≠ q by omega)]
    exact h r hr
  cases l with
  | «open» w =>
    simp only [step] at hs
    split at hs <;> cases hs
    intro r hr
    simp only [St.setR] at hr ⊢
    rw [upd_other _ _ (by omega)]
    exact h r (by omega)
  | run w refused =>
    simp only [step, stepRun] at hs
    split at hs
    · rename_i q hb
      obtain ⟨⟨l, hl⟩, -⟩ := body_some hb
      split at hs
      · cases hs; exact h
      · split at hs
        · cases hs; exact h
        · cases hs; exact fun r hr => top hl _ r hr
    · cases hs
  | runNoMemory w => cases hP
  | wait w =>
    simp only [step, stepWait] at hs
    split at hs
    · rename_i q hb
      obtain ⟨⟨l, hl⟩, -⟩ := body_some hb
      split at hs
      · cases hs; exact h
      · cases hs; exact top hl _
    · cases hs
  | go w =>
    simp only [step, stepGo] at hs
    split at hs
    · rename_i q rest hl
      split at hs
      · split at hs
        · cases hs; exact top hl _
        · cases hs; exact top hl _
        · cases hs
      · cases hs
    · cases hs
  | interrupt w =>
    simp only [step, stepInterrupt] at hs
    split at hs
    · rename_i q rest hl
      split at hs
      · cases hs
      · split at hs
        · cases hs; exact top hl _
        · cases hs; exact top hl _
        · cases hs
    · cases hs
  | leave w o =>
    simp only [step, stepLeave] at hs
    split at hs
    · rename_i q hb
      obtain ⟨⟨l, hl⟩, -⟩ := body_some hb
      cases hs; exact top hl _
    · cases hs
  | start i =>
    simp only [step, stepStart] at hs
    split at hs
    · split at hs
      · cases hs; exact h
      · cases hs
    · cases hs
  | body w o =>
    simp only [step, stepBody] at hs
    split at hs
    · split at hs
      · split at hs <;> cases hs <;> exact h
      · cases hs
    · cases hs
  | cancel w =>
    simp only [step, stepCancel] at hs
    split at hs
    · rename_i t _
      split at hs
      · split at hs
        · cases hs; exact h
        · rename_i hg
          cases hs
          intro r hr
          have hne : r ≠ (s.task t).reg := by intro he; exact hg (he ▸ h r hr)
          simp only [St.setR, upd_other _ _ hne]
          exact h r hr
      · cases hs
    · cases hs
  | ready w =>
    simp only [step, stepReady] at hs
    split at hs
    · split at hs
      · cases hs; exact h
      · cases hs
    · cases hs

/-! ## Executors -/

/-- A step concerns one thread. -/
theorem stack_local {s s' : St} {l : Label} {es : List Event} (hs : step s l = some (s', es)) :
    s'.limit = s.limit ∧ ∃ w, ∀ v, v ≠ w → s'.stack v = s.stack v := by
  cases l with
  | «open» w => simp only [step] at hs; split at hs <;> cases hs; exact ⟨rfl, w, fun v hv => updW_other _ _ hv⟩
  | run w r =>
    simp only [step, stepRun] at hs
    split at hs
    · split at hs
      · cases hs; exact ⟨rfl, w, fun _ _ => rfl⟩
      · split at hs <;> cases hs <;> exact ⟨rfl, w, fun _ _ => rfl⟩
    · cases hs
  | runNoMemory w =>
    simp only [step, stepRun] at hs
    split at hs
    · split at hs
      · cases hs; exact ⟨rfl, w, fun _ _ => rfl⟩
      · split at hs <;> cases hs <;> exact ⟨rfl, w, fun _ _ => rfl⟩
    · cases hs
  | wait w => simp only [step, stepWait] at hs; (repeat' split at hs) <;> cases hs <;> exact ⟨rfl, w, fun _ _ => rfl⟩
  | go w =>
    simp only [step, stepGo] at hs
    split at hs
    · split at hs
      · split at hs
        · cases hs; exact ⟨rfl, w, fun _ _ => rfl⟩
        · cases hs; exact ⟨rfl, w, fun v hv => updW_other _ _ hv⟩
        · cases hs
      · cases hs
    · cases hs
  | interrupt w =>
    simp only [step, stepInterrupt] at hs
    split at hs
    · split at hs
      · cases hs
      · split at hs
        · cases hs; exact ⟨rfl, w, fun _ _ => rfl⟩
        · cases hs; exact ⟨rfl, w, fun v hv => updW_other _ _ hv⟩
        · cases hs
    · cases hs
  | leave w o => simp only [step, stepLeave] at hs; split at hs <;> cases hs; exact ⟨rfl, w, fun _ _ => rfl⟩
  | start i =>
    simp only [step, stepStart] at hs
    split at hs
    · split at hs
      · cases hs; exact ⟨rfl, .worker i, fun v hv => updW_other _ _ hv⟩
      · cases hs
    · cases hs
  | body w o =>
    simp only [step, stepBody] at hs
    split at hs
    · split at hs
      · split at hs
        · cases hs; exact ⟨rfl, w, fun v hv => updW_other _ _ hv⟩
        · cases hs; exact ⟨rfl, w, fun _ _ => rfl⟩
      · cases hs
    · cases hs
  | cancel w =>
    simp only [step, stepCancel] at hs
    split at hs
    · split at hs
      · split at hs <;> cases hs <;> exact ⟨rfl, w, fun _ _ => rfl⟩
      · cases hs
    · cases hs
  | ready w =>
    simp only [step, stepReady] at hs
    split at hs
    · split at hs
      · cases hs; exact ⟨rfl, w, fun v hv => updW_other _ _ hv⟩
      · cases hs
    · cases hs

/-- An executor with a thread for every task. -/
def Unlimited (s : St) : Prop := s.limit = none ∧ ∃ n, ∀ i, n ≤ i → s.stack (.worker i) = []

theorem unlimited_step {s s' : St} {l : Label} {es : List Event} (h : Unlimited s) (hs : step s l = some (s', es)) : Unlimited s' := by
  obtain ⟨h1, w, h2⟩ := stack_local hs
  obtain ⟨h3, n, h4⟩ := h
  refine ⟨by rw [h1]; exact h3, ?_⟩
  cases w with
  | client j => exact ⟨n, fun i hi => by rw [h2 _ (by simp)]; exact h4 i hi⟩
  | worker j => exact ⟨n + j + 1, fun i hi => by rw [h2 _ (by intro he; cases he; omega)]; exact h4 i (by omega)⟩

theorem unlimited_free {s : St} (h : Unlimited s) : Free s := by
  intro _
  obtain ⟨h1, n, h2⟩ := h
  exact Or.inl ⟨n, by simp [St.works, h1], h2 n (Nat.le_refl _)⟩

/-- A thread pool whose threads do not call `task_region`. -/
def Flat (s : St) : Prop := (∃ k, s.limit = some k ∧ 0 < k) ∧ ∀ i, s.stack (.worker i) = [] ∨ ∃ t, s.stack (.worker i) = [.task t]

def opensInWorker : Label → Bool
  | .open (.worker _) => true
  | _ => false

theorem flat_step {s s' : St} {l : Label} {es : List Event} (h : Flat s) (hl : opensInWorker l = false) (hs : step s l = some (s', es)) : Flat s' := by
  obtain ⟨h1, -⟩ := stack_local hs
  refine ⟨by rw [h1]; exact h.1, ?_⟩
  have same : s'.stack = s.stack → ∀ i, s'.stack (.worker i) = [] ∨ ∃ t, s'.stack (.worker i) = [.task t] := fun he => by rw [he]; exact h.2
  have pop : ∀ w f rest, s.stack w = f :: rest → s'.stack = updW s.stack w rest →
      ∀ i, s'.stack (.worker i) = [] ∨ ∃ t, s'.stack (.worker i) = [.task t] := by
    intro w f rest h3 h4 i
    rw [h4]
    by_cases hw : Who.worker i = w
    · rw [hw, updW_same]
      rcases h.2 i with h5 | ⟨t, h5⟩
      · rw [← hw, h5] at h3; cases h3
      · rw [← hw, h5] at h3; cases h3; exact Or.inl rfl
    · rw [updW_other _ _ hw]; exact h.2 i
  cases l with
  | «open» w =>
    simp only [step] at hs
    split at hs <;> cases hs
    cases w with
    | worker i => cases hl
    | client j => intro i; simp only [updW_other s.stack _ (show Who.worker i ≠ .client j by simp)]; exact h.2 i
  | run w r =>
    simp only [step, stepRun] at hs
    split at hs
    · split at hs
      · cases hs; exact same rfl
      · split at hs <;> cases hs <;> exact same rfl
    · cases hs
  | runNoMemory w =>
    simp only [step, stepRun] at hs
    split at hs
    · split at hs
      · cases hs; exact same rfl
      · split at hs <;> cases hs <;> exact same rfl
    · cases hs
  | wait w => simp only [step, stepWait] at hs; (repeat' split at hs) <;> cases hs <;> exact same rfl
  | go w =>
    simp only [step, stepGo] at hs
    split at hs
    · rename_i r rest h3
      split at hs
      · split at hs
        · cases hs; exact same rfl
        · cases hs; exact pop w _ rest h3 rfl
        · cases hs
      · cases hs
    · cases hs
  | interrupt w =>
    simp only [step, stepInterrupt] at hs
    split at hs
    · rename_i r rest h3
      split at hs
      · cases hs
      · split at hs
        · cases hs; exact same rfl
        · cases hs; exact pop w _ rest h3 rfl
        · cases hs
    · cases hs
  | leave w o => simp only [step, stepLeave] at hs; split at hs <;> cases hs; exact same rfl
  | start j =>
    simp only [step, stepStart] at hs
    split at hs
    · split at hs
      · rename_i t q _
        cases hs
        intro i
        by_cases hw : Who.worker i = .worker j
        · simp only [hw, updW_same]; exact Or.inr ⟨t, rfl⟩
        · simp only [updW_other _ _ hw]; exact h.2 i
      · cases hs
    · cases hs
  | body w o =>
    simp only [step, stepBody] at hs
    split at hs
    · rename_i t rest h3
      split at hs
      · split at hs
        · cases hs; exact pop w _ rest h3 rfl
        · cases hs; exact same rfl
      · cases hs
    · cases hs
  | cancel w =>
    simp only [step, stepCancel] at hs
    split at hs
    · split at hs
      · split at hs <;> cases hs <;> exact same rfl
      · cases hs
    · cases hs
  | ready w =>
    simp only [step, stepReady] at hs
    split at hs
    · rename_i t rest h3
      split at hs
      · cases hs; exact pop w _ rest h3 rfl
      · cases hs
    · cases hs

theorem flat_free {s : St} (h : Flat s) : Free s := by
  intro _
  obtain ⟨⟨k, h1, h2⟩, h3⟩ := h
  rcases h3 0 with h4 | ⟨t, h4⟩
  · exact Or.inl ⟨0, by simp [St.works, h1, h2], h4⟩
  · exact Or.inr ⟨.worker 0, t, [], h4⟩

/-! ## Starvation -/

/-- Every thread of the pool waits for a task that is in the queue. -/
structure Stuck (k : Nat) (s : St) : Prop where
  limit : s.limit = some k
  busy : ∀ i, i < k → ∃ r rest u, s.stack (.worker i) = .region r :: rest ∧ ((s.reg r).phase = .waiting ∨ (s.reg r).phase = .final) ∧
    u ∈ (s.reg r).group ∧ (s.task u).st = .queued
  none : ∀ i, k ≤ i → s.stack (.worker i) = []

def interrupts : Label → Bool
  | .interrupt _ => true
  | _ => false

/-- The state after a step of thread `w` that is not blocked. -/
theorem Stuck.keep {k : Nat} {s s' : St} {j : Nat} (h : Stuck k s) (hl : LInv s) (h1 : s'.limit = s.limit)
    (h2 : ∀ i, s'.stack (.worker i) = s.stack (.worker i)) (h3 : ∀ u, u < s.nt → s'.task u = s.task u)
    (h4 : ∀ r, r < s.nr → (s.reg r).owner ≠ .client j → s'.reg r = s.reg r) : Stuck k s' := by
  refine ⟨by rw [h1]; exact h.limit, ?_, fun i hi => by rw [h2]; exact h.none i hi⟩
  intro i hi
  obtain ⟨r, rest, u, a, b, c, d⟩ := h.busy i hi
  obtain ⟨-, ho, hlt⟩ := hl.frames (.worker i) r (by rw [a]; exact List.mem_cons_self ..)
  have e := h4 r hlt (by rw [ho]; simp)
  exact ⟨r, rest, u, by rw [h2]; exact a, by rw [e]; exact b, by rw [e]; exact c, by rw [h3 u (hl.known r u c)]; exact d⟩

/-- What a thread of the pool has on its stack. -/
theorem Stuck.worker {k : Nat} {s : St} (h : Stuck k s) (i : Nat) : s.stack (.worker i) = [] ∨
    ∃ r rest, s.stack (.worker i) = .region r :: rest ∧ ((s.reg r).phase = .waiting ∨ (s.reg r).phase = .final) ∧ s.allDone r = false := by
  by_cases hi : i < k
  · obtain ⟨r, rest, u, a, b, c, d⟩ := h.busy i hi
    refine Or.inr ⟨r, rest, a, b, ?_⟩
    cases hd : s.allDone r with
    | false => rfl
    | true =>
      have := List.all_eq_true.1 hd u c
      rw [d] at this; cases this
  · exact Or.inl (h.none i (by omega))

theorem Stuck.body {k : Nat} {s : St} (h : Stuck k s) {w : Who} {r : Nat} (hb : s.body? w = some r) : ∃ j, w = .client j := by
  cases w with
  | client j => exact ⟨j, rfl⟩
  | worker i =>
    obtain ⟨⟨l, hl⟩, hp⟩ := body_some hb
    rcases h.worker i with h1 | ⟨r', rest, h1, h2, -⟩
    · rw [h1] at hl; cases hl
    · rw [h1] at hl; cases hl; rw [hp] at h2; rcases h2 with h2 | h2 <;> cases h2

theorem Stuck.task {k : Nat} {s : St} (h : Stuck k s) (hl : LInv s) {w : Who} {t : Nat} {l : List Frame} (hs : s.stack w = .task t :: l) : False := by
  have hw := (hl.framesT w t (by rw [hs]; exact List.mem_cons_self ..)).2.1
  subst hw
  rcases h.worker (s.task t).runner with h1 | ⟨r', rest, h1, -, -⟩ <;> rw [h1] at hs <;> cases hs

/-- The tasks do not change; no call of `task_region` with an unfinished task returns. -/
structure Frozen (s s' : St) (es : List Event) : Prop where
  nt : s.nt ≤ s'.nt
  nr : s.nr ≤ s'.nr
  tasks : ∀ u, u < s.nt → s'.task u = s.task u
  groups : ∀ r, r < s.nr → ∀ u ∈ (s.reg r).group, u ∈ (s'.reg r).group
  closed : ∀ w r x, .closed w r x ∈ es → r < s.nr → ∀ u ∈ (s.reg r).group, (s.task u).st.isDone = true

theorem stuck_step {k : Nat} {s s' : St} {l : Label} {es : List Event} (h : Stuck k s) (hl : LInv s) (hi : interrupts l = false) (hP : plain s l = true)
    (hs : step s l = some (s', es)) : Stuck k s' ∧ Frozen s s' es := by
  have own : ∀ {j r l}, s.stack (.client j) = .region r :: l → ∀ q, (s.reg q).owner ≠ .client j → q ≠ r := by
    intro j r l h1 q h2 he
    subst he
    exact h2 (hl.frames _ q (by rw [h1]; exact List.mem_cons_self ..)).2.1
  have grp : ∀ {r : Nat} {x : Reg}, x.group = (s.reg r).group → ∀ q, q < s.nr → ∀ u ∈ (s.reg q).group, u ∈ ((s.setR r x).reg q).group := by
    intro r x hx q _ u hu
    by_cases hq : q = r
    · subst hq; simp only [St.setR, upd_same]; rw [hx]; exact hu
    · simp only [St.setR, upd_other _ _ hq]; exact hu
  have same : ∀ {es'}, (∀ w r x, Event.closed w r x ∉ es') → Stuck k s ∧ Frozen s s es' := by
    intro es' h1
    exact ⟨h, Nat.le_refl _, Nat.le_refl _, fun _ _ => rfl, fun _ _ _ hu => hu, fun w r x hx => absurd hx (h1 w r x)⟩
  cases l with
  | «open» w =>
    simp only [step] at hs
    split at hs <;> cases hs
    rename_i hu
    cases w with
    | worker i =>
      rcases h.worker i with h1 | ⟨r, rest, h1, h2, -⟩
      · simp [St.user, h1] at hu
      · simp only [St.user, h1, decide_eq_true_eq] at hu
        rw [hu] at h2; rcases h2 with h2 | h2 <;> cases h2
    | client j =>
      have hne : ∀ q, q < s.nr → q ≠ s.nr := fun q hq => Nat.ne_of_lt hq
      refine ⟨h.keep (j := j) hl rfl (fun i => updW_other s.stack (.region s.nr :: s.stack (.client j)) (show Who.worker i ≠ .client j by simp)) (fun _ _ => rfl)
        (fun q hq _ => upd_other _ _ (hne q hq)), Nat.le_refl _, Nat.le_succ _, fun _ _ => rfl, ?_, by simp⟩
      intro q hq u hu
      simp only [St.setR, upd_other _ _ (hne q hq)]; exact hu
  | run w refused =>
    simp only [step, stepRun] at hs
    split at hs
    · rename_i r hb
      split at hs
      · cases hs; exact same (by simp)
      · split at hs
        · cases hs; exact same (by simp)
        · cases hs
          obtain ⟨j, rfl⟩ := h.body hb
          obtain ⟨⟨l, hl'⟩, -⟩ := body_some hb
          refine ⟨h.keep (j := j) hl rfl (fun _ => rfl) (fun u hu => upd_other _ _ (Nat.ne_of_lt hu)) (fun q hq ho => upd_other _ _ (own hl' q ho)),
            Nat.le_succ _, Nat.le_refl _, fun u hu => upd_other _ _ (Nat.ne_of_lt hu), ?_, by simp⟩
          intro q hq u hu
          by_cases he : q = r
          · subst he; simp only [St.setR, upd_same]; exact List.mem_append_left _ hu
          · simp only [St.setR, upd_other _ _ he]; exact hu
    · cases hs
  | runNoMemory w => cases hP
  | wait w =>
    simp only [step, stepWait] at hs
    split at hs
    · rename_i r hb
      split at hs
      · cases hs; exact same (by simp)
      · cases hs
        obtain ⟨j, rfl⟩ := h.body hb
        obtain ⟨⟨l, hl'⟩, -⟩ := body_some hb
        exact ⟨h.keep (j := j) hl rfl (fun _ => rfl) (fun _ _ => rfl) (fun q hq ho => upd_other _ _ (own hl' q ho)), Nat.le_refl _, Nat.le_refl _,
          fun _ _ => rfl, grp rfl, by simp⟩
    · cases hs
  | go w =>
    simp only [step, stepGo] at hs
    split at hs
    · rename_i r rest hl'
      split at hs
      · rename_i hd
        have hw : ∃ j, w = .client j := by
          cases w with
          | client j => exact ⟨j, rfl⟩
          | worker i =>
            rcases h.worker i with h1 | ⟨r', rest', h1, -, h2⟩
            · rw [h1] at hl'; cases hl'
            · rw [h1] at hl'; cases hl'; rw [h2] at hd; cases hd
        obtain ⟨j, rfl⟩ := hw
        split at hs
        · cases hs
          refine ⟨h.keep (j := j) hl rfl (fun _ => rfl) (fun _ _ => rfl) (fun q hq ho => upd_other _ _ (own hl' q ho)), Nat.le_refl _, Nat.le_refl _,
            fun _ _ => rfl, grp rfl, ?_⟩
          intro w q x hx
          simp only [List.mem_singleton] at hx
          split at hx <;> cases hx
        · cases hs
          refine ⟨h.keep (j := j) hl rfl (fun i => updW_other s.stack rest (show Who.worker i ≠ .client j by simp)) (fun _ _ => rfl) (fun q hq ho => upd_other _ _ (own hl' q ho)), Nat.le_refl _,
            Nat.le_refl _, fun _ _ => rfl, grp rfl, ?_⟩
          intro w q x hx _ u hu
          simp only [List.mem_singleton] at hx
          cases hx
          exact List.all_eq_true.1 hd u hu
        · cases hs
      · cases hs
    · cases hs
  | interrupt w => cases hi
  | leave w o =>
    simp only [step, stepLeave] at hs
    split at hs
    · rename_i r hb
      cases hs
      obtain ⟨j, rfl⟩ := h.body hb
      obtain ⟨⟨l, hl'⟩, -⟩ := body_some hb
      exact ⟨h.keep (j := j) hl rfl (fun _ => rfl) (fun _ _ => rfl) (fun q hq ho => upd_other _ _ (own hl' q ho)), Nat.le_refl _, Nat.le_refl _,
        fun _ _ => rfl, grp rfl, by simp⟩
    · cases hs
  | start i =>
    simp only [step, stepStart] at hs
    split at hs
    · rename_i hc
      have hik : i < k := by have := hc.1; simpa [St.works, h.limit] using this
      obtain ⟨r, rest, u, a, -⟩ := h.busy i hik
      rw [a] at hc; cases hc.2
    · cases hs
  | body w o =>
    simp only [step, stepBody] at hs
    split at hs
    · rename_i t rest hl'; exact (h.task hl hl').elim
    · cases hs
  | cancel w =>
    simp only [step, stepCancel, St.task?] at hs
    split at hs
    · rename_i t ht
      split at ht
      · rename_i t' rest hl'; exact (h.task hl hl').elim
      · cases ht
    · cases hs
  | ready w =>
    simp only [step, stepReady] at hs
    split at hs
    · rename_i t rest hl'; exact (h.task hl hl').elim
    · cases hs

theorem stuck_run {k : Nat} {ls : List Label} {s s' : St} {es : List Event} (h : Stuck k s) (hl : LInv s) (hi : ∀ l ∈ ls, interrupts l = false)
    (hs : run stepPlain s ls = some (s', es)) {r u : Nat} (hr : r < s.nr) (hu : u ∈ (s.reg r).group) (hd : (s.task u).st.isDone = false) :
    ∀ w x, .closed w r x ∉ es := by
  induction ls generalizing s es with
  | nil =>
    simp only [run_nil, Option.some.injEq, Prod.mk.injEq] at hs
    obtain ⟨-, rfl⟩ := hs
    intro w x hx; cases hx
  | cons l ls ih =>
    obtain ⟨m, e1, e2, h2, h3, rfl⟩ := run_cons hs
    obtain ⟨hP, hst⟩ := of_plain h2
    obtain ⟨h4, h5⟩ := stuck_step h hl (hi l (List.mem_cons_self ..)) hP hst
    intro w x hx
    rcases List.mem_append.1 hx with hx | hx
    · have := h5.closed w r x hx hr u hu
      rw [hd] at this; cases this
    · refine ih h4 (linv_step hl hP hst) (fun l' hl' => hi l' (List.mem_cons_of_mem _ hl')) h3 (Nat.lt_of_lt_of_le hr h5.nr) (h5.groups r hr u hu) ?_ w x hx
      rw [h5.tasks u (hl.known r u hu)]; exact hd

/-- The first part of a schedule that ends in starvation: `i` threads execute tasks of region 0. -/
structure Taken (k i : Nat) (s : St) : Prop where
  inv : LInv s
  limit : s.limit = some k
  queue : s.queue = []
  busy : ∀ j, j < i → ∃ t, s.stack (.worker j) = [.task t] ∧ (s.task t).st = .running
  idle : ∀ j, i ≤ j → s.stack (.worker j) = []
  client : s.stack (.client 0) = [.region 0]
  body : (s.reg 0).phase = .body
  canceled : (s.reg 0).canceled = false
  waits : 0 < i → ∃ u ∈ (s.reg 0).group, (s.task u).st = .running

theorem taken_step {k i : Nat} (hi : i < k) {s : St} (h : Taken k i s) :
    ∃ s' es, run stepPlain s [.run (.client 0) false, .start i] = some (s', es) ∧ Taken k (i + 1) s' := by
  have hnr : 0 < s.nr := (h.inv.frames _ 0 (by rw [h.client]; exact List.mem_cons_self ..)).2.2
  have hb : s.body? (.client 0) = some 0 := by simp [St.body?, h.client, h.body]
  have e1 : step s (.run (.client 0) false) = some ({ s with nt := s.nt + 1, queue := [s.nt], task := upd s.task s.nt { reg := 0 } : St}.setR 0
      { s.reg 0 with group := (s.reg 0).group ++ [s.nt] }, [.ran (.client 0) 0 s.nt]) := by
    simp [step, stepRun, hb, h.canceled, h.queue]
  have i1 := linv_step h.inv (l := .run (.client 0) false) rfl e1
  have old : ∀ j t, Frame.task t ∈ s.stack j → t ≠ s.nt := fun j t ht => Nat.ne_of_lt (h.inv.framesT j t ht).1
  generalize hs1 : ({ s with nt := s.nt + 1, queue := [s.nt], task := upd s.task s.nt { reg := 0 } : St}.setR 0
      { s.reg 0 with group := (s.reg 0).group ++ [s.nt] }) = s1 at e1 i1
  have q1 : s1.queue = [s.nt] := by subst hs1; rfl
  have st1 : s1.stack = s.stack := by subst hs1; rfl
  have l1 : s1.limit = some k := by subst hs1; exact h.limit
  have t1 : ∀ t, t ≠ s.nt → s1.task t = s.task t := by subst hs1; exact fun t ht => upd_other _ _ ht
  have r1 : (s1.reg 0).phase = .body ∧ (s1.reg 0).canceled = false ∧ s.nt ∈ (s1.reg 0).group := by
    subst hs1; simp [St.setR, h.body, h.canceled]
  have e2 : step s1 (.start i) = some ({ s1 with
      queue := [], task := upd s1.task s.nt { s1.task s.nt with st := .running, runner := i }, stack := updW s1.stack (.worker i) [.task s.nt] }, [.began s.nt]) := by
    have hw : s1.works i = true := by simp [St.works, l1, hi]
    have hs : s1.stack (.worker i) = [] := by rw [st1]; exact h.idle i (Nat.le_refl _)
    simp [step, stepStart, hw, hs, q1]
  have i2 := linv_step i1 (l := .start i) rfl e2
  refine ⟨_, [.ran (.client 0) 0 s.nt] ++ ([.began s.nt] ++ []), ?_, ⟨i2, l1, rfl, ?_, ?_, ?_, r1.1, r1.2.1, ?_⟩⟩
  · show run stepPlain s (_ :: _ :: []) = _
    simp [Verif.run, stepPlain, plain, e1, e2]
  · intro j hj
    by_cases hji : j = i
    · subst hji; exact ⟨s.nt, by simp, by simp⟩
    · obtain ⟨t, a, b⟩ := h.busy j (by omega)
      have hne := old (.worker j) t (by rw [a]; exact List.mem_cons_self ..)
      refine ⟨t, ?_, ?_⟩
      · simp only [updW_other s1.stack _ (show Who.worker j ≠ .worker i by intro he; cases he; exact hji rfl)]; rw [st1]; exact a
      · simp only [upd_other s1.task _ hne]; rw [t1 t hne]; exact b
  · intro j hj
    simp only [updW_other s1.stack _ (show Who.worker j ≠ .worker i by intro he; cases he; omega)]
    rw [st1]; exact h.idle j (by omega)
  · simp only [updW_other s1.stack _ (show Who.client 0 ≠ .worker i by simp)]
    rw [st1]; exact h.client
  · intro _
    exact ⟨s.nt, r1.2.2, by simp⟩

theorem taken (k : Nat) : ∀ i, i ≤ k → ∃ ls s es, (∀ l ∈ ls, interrupts l = false) ∧ run stepPlain (init (some k)) ls = some (s, es) ∧ Taken k i s := by
  intro i
  induction i with
  | zero =>
    intro _
    have e : step (init (some k)) (.open (.client 0)) = some ({ (init (some k)).setR 0 { owner := .client 0, phase := .body } with
      nr := 1, stack := updW (init (some k)).stack (.client 0) [.region 0] }, [.opened (.client 0) 0]) := rfl
    refine ⟨[.open (.client 0)], _, [.opened (.client 0) 0] ++ [], by simp [interrupts], ?_, ⟨linv_step (linv_init _) (l := .open (.client 0)) rfl e, rfl, rfl, ?_, ?_, ?_, ?_, ?_, ?_⟩⟩
    · show run stepPlain _ (_ :: []) = _
      simp [Verif.run, stepPlain, plain, e]
    · intro j hj; exact absurd hj (Nat.not_lt_zero _)
    · intro j _; simp only [updW_other (init (some k)).stack _ (show Who.worker j ≠ .client 0 by simp)]; rfl
    · simp
    · simp [St.setR]
    · simp [St.setR]
    · intro h; exact absurd h (Nat.lt_irrefl _)
  | succ i ih =>
    intro hi
    obtain ⟨ls, s, es, h1, h2, h3⟩ := ih (by omega)
    obtain ⟨s', es', h4, h5⟩ := taken_step hi h3
    refine ⟨ls ++ [.run (.client 0) false, .start i], s', es ++ es', ?_, run_append h2 h4, h5⟩
    intro l hl
    rcases List.mem_append.1 hl with hl | hl
    · exact h1 l hl
    · simp only [List.mem_cons, List.not_mem_nil, or_false] at hl
      rcases hl with rfl | rfl <;> rfl

/-- The second part: the tasks of `i` threads wait for tasks of their own. -/
structure Nested (k i : Nat) (s : St) : Prop where
  inv : LInv s
  limit : s.limit = some k
  stuck : ∀ j, j < i → ∃ r rest u, s.stack (.worker j) = .region r :: rest ∧ (s.reg r).phase = .final ∧ u ∈ (s.reg r).group ∧ (s.task u).st = .queued
  busy : ∀ j, i ≤ j → j < k → ∃ t, s.stack (.worker j) = [.task t] ∧ (s.task t).st = .running
  none : ∀ j, k ≤ j → s.stack (.worker j) = []
  client : s.stack (.client 0) = [.region 0]
  waits : ∃ u ∈ (s.reg 0).group, (s.task u).st.isDone = false

theorem nested_step {k i : Nat} (hi : i < k) {s : St} (h : Nested k i s) :
    ∃ s' es, run stepPlain s [.open (.worker i), .run (.worker i) false, .leave (.worker i) none] = some (s', es) ∧ Nested k (i + 1) s' := by
  obtain ⟨t, hst, hrun⟩ := h.busy i (Nat.le_refl _) hi
  have e1 : step s (.open (.worker i)) = some ({ s.setR s.nr { owner := .worker i, phase := .body } with
      nr := s.nr + 1, stack := updW s.stack (.worker i) (.region s.nr :: s.stack (.worker i)) }, [.opened (.worker i) s.nr]) := by
    have hu : s.user (.worker i) = true := by simp [St.user, hst, hrun]
    simp [step, hu]
  have i1 := linv_step h.inv (l := .open (.worker i)) rfl e1
  generalize hs1 : ({ s.setR s.nr { owner := .worker i, phase := .body } with
      nr := s.nr + 1, stack := updW s.stack (.worker i) (.region s.nr :: s.stack (.worker i)) } : St) = s1 at e1 i1
  have hb1 : s1.body? (.worker i) = some s.nr := by subst hs1; simp [St.body?, St.setR]
  have r1 : s1.reg s.nr = { owner := .worker i, phase := .body } := by subst hs1; simp [St.setR]
  have t1 : s1.task = s.task ∧ s1.nt = s.nt ∧ s1.nr = s.nr + 1 ∧ s1.limit = s.limit := by subst hs1; exact ⟨rfl, rfl, rfl, rfl⟩
  have o1 : ∀ r, r ≠ s.nr → s1.reg r = s.reg r := by subst hs1; exact fun r hr => upd_other _ _ hr
  have st1 : s1.stack = updW s.stack (.worker i) (.region s.nr :: s.stack (.worker i)) := by subst hs1; rfl
  have e2 : step s1 (.run (.worker i) false) = some ({ s1 with nt := s1.nt + 1, queue := s1.queue ++ [s1.nt], task := upd s1.task s1.nt { reg := s.nr } : St}.setR
      s.nr { s1.reg s.nr with group := (s1.reg s.nr).group ++ [s1.nt] }, [.ran (.worker i) s.nr s1.nt]) := by
    simp [step, stepRun, hb1, r1]
  have i2 := linv_step i1 (l := .run (.worker i) false) rfl e2
  generalize hs2 : ({ s1 with nt := s1.nt + 1, queue := s1.queue ++ [s1.nt], task := upd s1.task s1.nt { reg := s.nr } : St}.setR
      s.nr { s1.reg s.nr with group := (s1.reg s.nr).group ++ [s1.nt] }) = s2 at e2 i2
  have r2 : s2.reg s.nr = { owner := .worker i, phase := .body, group := [s.nt] } := by subst hs2; simp [St.setR, r1, t1.2.1]
  have o2 : ∀ r, r ≠ s.nr → s2.reg r = s.reg r := by subst hs2; exact fun r hr => (upd_other _ _ hr).trans (o1 r hr)
  have t2 : s2.task = upd s.task s.nt { reg := s.nr } ∧ s2.nt = s.nt + 1 ∧ s2.nr = s.nr + 1 ∧ s2.limit = s.limit := by
    subst hs2; simp [St.setR, t1]
  have st2 : s2.stack = s1.stack := by subst hs2; rfl
  have hb2 : s2.body? (.worker i) = some s.nr := by simp [St.body?, st2, st1, r2]
  have e3 : step s2 (.leave (.worker i) none) = some (s2.setR s.nr { s2.reg s.nr with phase := .final, exs := caught (s2.reg s.nr).exs none },
      [.left (.worker i) s.nr none]) := by
    simp [step, stepLeave, hb2]
  have i3 := linv_step i2 (l := .leave (.worker i) none) rfl e3
  have o3 : ∀ r, r ≠ s.nr → (s2.setR s.nr { s2.reg s.nr with phase := .final, exs := caught (s2.reg s.nr).exs none }).reg r = s.reg r :=
    fun r hr => (upd_other _ _ hr).trans (o2 r hr)
  have keep : ∀ j, j ≠ i → (s2.setR s.nr { s2.reg s.nr with phase := .final, exs := caught (s2.reg s.nr).exs none }).stack (.worker j) = s.stack (.worker j) := by
    intro j hj
    show s2.stack _ = _
    rw [st2, st1]; exact updW_other _ _ (by intro he; cases he; exact hj rfl)
  have keepT : ∀ u, u < s.nt → (s2.setR s.nr { s2.reg s.nr with phase := .final, exs := caught (s2.reg s.nr).exs none }).task u = s.task u := by
    intro u hu
    show s2.task u = _
    rw [t2.1]; exact upd_other _ _ (Nat.ne_of_lt hu)
  refine ⟨_, [.opened (.worker i) s.nr] ++ ([.ran (.worker i) s.nr s1.nt] ++ ([.left (.worker i) s.nr none] ++ [])), ?_, ⟨i3, ?_, ?_, ?_, ?_, ?_, ?_⟩⟩
  · show run stepPlain s (_ :: _ :: _ :: []) = _
    simp [Verif.run, stepPlain, plain, e1, e2, e3]
  · show s2.limit = _
    rw [t2.2.2.2]; exact h.limit
  · intro j hj
    by_cases hji : j = i
    · subst hji
      refine ⟨s.nr, s.stack (.worker j), s.nt, ?_, ?_, ?_, ?_⟩
      · show s2.stack _ = _
        rw [st2, st1]; simp
      · simp [St.setR]
      · simp [St.setR, r2]
      · show (s2.task s.nt).st = _
        rw [t2.1]; simp
    · obtain ⟨r, rest, u, a, b, c, d⟩ := h.stuck j (by omega)
      have hr := Nat.ne_of_lt (h.inv.frames _ r (by rw [a]; exact List.mem_cons_self ..)).2.2
      exact ⟨r, rest, u, by rw [keep j hji]; exact a, by rw [o3 r hr]; exact b, by rw [o3 r hr]; exact c, by rw [keepT u (h.inv.known r u c)]; exact d⟩
  · intro j hj hk
    obtain ⟨t', a, b⟩ := h.busy j (by omega) hk
    exact ⟨t', by rw [keep j (by omega)]; exact a, by rw [keepT t' (h.inv.framesT _ t' (by rw [a]; exact List.mem_cons_self ..)).1]; exact b⟩
  · intro j hj; rw [keep j (by omega)]; exact h.none j hj
  · show s2.stack _ = _
    rw [st2, st1, updW_other s.stack _ (show Who.client 0 ≠ .worker i by simp)]; exact h.client
  · obtain ⟨u, hu, hd⟩ := h.waits
    exact ⟨u, by rw [o3 0 (Nat.ne_of_lt (h.inv.frames _ 0 (by rw [h.client]; exact List.mem_cons_self ..)).2.2)]; exact hu, by rw [keepT u (h.inv.known 0 u hu)]; exact hd⟩

theorem nested {k : Nat} (hk : 0 < k) : ∀ i, i ≤ k → ∃ ls s es, (∀ l ∈ ls, interrupts l = false) ∧ run stepPlain (init (some k)) ls = some (s, es) ∧ Nested k i s := by
  intro i
  induction i with
  | zero =>
    intro _
    obtain ⟨ls, s, es, h1, h2, h3⟩ := taken k k (Nat.le_refl _)
    obtain ⟨u, hu, hr⟩ := h3.waits hk
    refine ⟨ls, s, es, h1, h2, h3.inv, h3.limit, fun j hj => absurd hj (Nat.not_lt_zero _), fun j _ hj => h3.busy j hj, h3.idle, h3.client, u, hu, by rw [hr]; rfl⟩
  | succ i ih =>
    intro hi
    obtain ⟨ls, s, es, h1, h2, h3⟩ := ih (by omega)
    obtain ⟨s', es', h4, h5⟩ := nested_step hi h3
    refine ⟨ls ++ [.open (.worker i), .run (.worker i) false, .leave (.worker i) none], s', es ++ es', ?_, run_append h2 h4, h5⟩
    intro l hl
    rcases List.mem_append.1 hl with hl | hl
    · exact h1 l hl
    · simp only [List.mem_cons, List.not_mem_nil, or_false] at hl
      rcases hl with rfl | rfl | rfl <;> rfl

theorem Nested.starved {k : Nat} {s : St} (h : Nested k k s) : Stuck k s :=
  ⟨h.limit, fun i hi => by
    obtain ⟨r, rest, u, a, b, c, d⟩ := h.stuck i hi
    exact ⟨r, rest, u, a, Or.inr b, c, d⟩, h.none⟩

end Verif.TaskRegion
