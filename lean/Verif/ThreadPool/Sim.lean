import Verif.ThreadPool.Spec
import Verif.Core.Count
/-! # Every history of the pool is allowed -/

set_option linter.unusedSimpArgs false

namespace Verif.ThreadPool

/-- The closures: those numbered from `lo` on are in the queue, the others have been pulled. -/
structure F (n lo nxt : Nat) (q : List Nat) (stk : Nat → List Frame) (st : Nat → St) (pend : List Nat) : Prop where
  lo_le : lo ≤ nxt
  q : q = List.range' lo (nxt - lo)
  lt : ∀ t f, f ∈ stk t → f.c < lo
  nodup : ∀ t, ((stk t).map Frame.c).Nodup
  uniq : ∀ t u f g, f ∈ stk t → g ∈ stk u → f.c = g.c → t = u
  tail : ∀ t f rest, stk t = f :: rest → ∀ g ∈ rest, g.started = true
  run : ∀ c t, st c = .running t ↔ ⟨c, true⟩ ∈ stk t
  wait : ∀ c, st c = .waiting ↔ lo ≤ c ∨ ∃ t, ⟨c, false⟩ ∈ stk t
  pend : ∀ t, t ∈ pend ↔ ∃ c rest, stk t = ⟨c, false⟩ :: rest ∧ viaTry n t rest = true

variable {n lo nxt : Nat} {q : List Nat} {stk : Nat → List Frame} {st : Nat → St} {pend : List Nat}

theorem F.submit (h : F n lo nxt q stk st pend) : F n lo (nxt + 1) (q ++ [nxt]) stk (upd st nxt .waiting) pend := by
  have e : upd st nxt .waiting = st := by
    funext c
    have := (h.wait c).mpr
    have := h.lo_le
    grind
  rw [e]
  refine { h with lo_le := by have := h.lo_le; omega, q := ?_ }
  rw [h.q, show nxt + 1 - lo = (nxt - lo) + 1 from by have := h.lo_le; omega, List.range'_concat]
  have : lo + 1 * (nxt - lo) = nxt := by have := h.lo_le; omega
  rw [this]

theorem F.pull_eq (h : F n lo nxt (c :: q) stk st pend) : c = lo ∧ lo < nxt ∧ q = List.range' (lo + 1) (nxt - (lo + 1)) := by
  have := h.q
  have hl := h.lo_le
  cases hk : nxt - lo with
  | zero => rw [hk] at this; simp at this
  | succ k =>
    rw [hk, List.range'_succ] at this
    simp only [List.cons.injEq] at this
    refine ⟨this.1, by omega, ?_⟩
    rw [this.2]
    congr 1
    omega

theorem F.pull (h : F n lo nxt (c :: q) stk st pend) (t : Nat) (ht : ∀ f rest, stk t = f :: rest → f.started = true)
    {pend' : List Nat} (hp : ∀ u, u ∈ pend' ↔ u ∈ pend ∨ (u = t ∧ viaTry n t (stk t) = true)) :
    F n (lo + 1) nxt q (upd stk t (⟨c, false⟩ :: stk t)) st pend' := by
  obtain ⟨rfl, hlt, hq⟩ := h.pull_eq
  obtain ⟨_, _, h3, h4, h5, h6, h7, h8, h9⟩ := h
  refine ⟨by omega, hq, ?_, ?_, ?_, ?_, ?_, ?_, ?_⟩
  · grind
  · intro u
    simp only [upd_apply]
    split
    · subst u
      simp only [List.map_cons, List.nodup_cons, List.mem_map, not_exists, not_and]
      exact ⟨fun f hf e => by have := h3 t f hf; omega, h4 t⟩
    · exact h4 u
  · intro u v f g hf hg e
    simp only [upd_apply] at hf hg
    grind
  · intro u f rest hu g hg
    simp only [upd_apply] at hu
    split at hu
    · subst u
      simp only [List.cons.injEq] at hu
      obtain ⟨_, rfl⟩ := hu
      cases hs : stk t with
      | nil => rw [hs] at hg; cases hg
      | cons f' rest' =>
        rw [hs] at hg
        have h1 := ht f' rest' hs
        have h2 := h6 t f' rest' hs
        grind
    · exact h6 u f rest hu g hg
  · intro d u
    simp only [upd_apply]
    grind
  · intro d
    constructor
    · intro hw
      rcases (h8 d).mp hw with h | ⟨u, hu⟩
      · by_cases e : d = c
        · exact .inr ⟨t, by simp [upd_apply, e]⟩
        · exact .inl (by omega)
      · exact .inr ⟨u, by simp only [upd_apply]; grind⟩
    · rintro (h | ⟨u, hu⟩)
      · exact (h8 d).mpr (.inl (by omega))
      · simp only [upd_apply] at hu
        split at hu
        · rcases List.mem_cons.mp hu with e | hu
          · cases e; exact (h8 _).mpr (.inl (Nat.le_refl _))
          · exact (h8 _).mpr (.inr ⟨_, ‹u = t› ▸ hu⟩)
        · exact (h8 _).mpr (.inr ⟨_, hu⟩)
  · intro u
    rw [hp, h9]
    simp only [upd_apply]
    by_cases e : u = t
    · subst u
      have : ∀ c rest, stk t = ⟨c, false⟩ :: rest → False := fun c rest e => by simpa using ht _ _ e
      simp only [↓reduceIte, List.cons.injEq, Frame.mk.injEq]
      grind
    · simp [e]

theorem F.start (h : F n lo nxt q stk st pend) {t c : Nat} {rest : List Frame} (hs : stk t = ⟨c, false⟩ :: rest) :
    F n lo nxt q (upd stk t (⟨c, true⟩ :: rest)) (upd st c (.running t)) (pend.filter fun u => u ≠ t) := by
  have hmem : (⟨c, false⟩ : Frame) ∈ stk t := by rw [hs]; exact List.mem_cons_self ..
  obtain ⟨h1, h2, h3, h4, h5, h6, h7, h8, h9⟩ := h
  have hc : c < lo := h3 t _ hmem
  have hn := h4 t
  rw [hs] at hn
  simp only [List.map_cons, List.nodup_cons, List.mem_map, not_exists, not_and] at hn
  have hr := h6 t _ _ hs
  have hother : ∀ u f, f ∈ stk u → f.c = c → u = t := fun u f hf e => h5 u t f _ hf hmem e
  have hthis : ∀ f, f ∈ stk t → f.c = c → f = ⟨c, false⟩ := fun f hf e => by
    rw [hs] at hf
    rcases List.mem_cons.mp hf with h | h
    · exact h
    · exact absurd e (hn.1 f h)
  refine ⟨h1, h2, ?_, ?_, ?_, ?_, ?_, ?_, ?_⟩
  · intro u f hf
    simp only [upd_apply] at hf
    split at hf
    · rcases List.mem_cons.mp hf with h | h
      · subst h; exact hc
      · exact h3 t f (by rw [hs]; exact List.mem_cons_of_mem _ h)
    · exact h3 u f hf
  · intro u
    simp only [upd_apply]
    split
    · have := h4 t
      rw [hs] at this
      simpa using this
    · exact h4 u
  · intro u v f g hf hg e
    have key : ∀ w f, f ∈ upd stk t (⟨c, true⟩ :: rest) w → ∃ g ∈ stk w, g.c = f.c := by
      intro w f hf
      simp only [upd_apply] at hf
      split at hf
      · subst w
        rcases List.mem_cons.mp hf with h | h
        · subst h; exact ⟨_, hmem, rfl⟩
        · exact ⟨f, by rw [hs]; exact List.mem_cons_of_mem _ h, rfl⟩
      · exact ⟨f, hf, rfl⟩
    obtain ⟨f', hf', e1⟩ := key u f hf
    obtain ⟨g', hg', e2⟩ := key v g hg
    exact h5 u v f' g' hf' hg' (by rw [e1, e2, e])
  · intro u f r hu g hg
    simp only [upd_apply] at hu
    split at hu
    · simp only [List.cons.injEq] at hu
      obtain ⟨_, rfl⟩ := hu
      exact hr g hg
    · exact h6 u f r hu g hg
  · intro d u
    simp only [upd_apply]
    by_cases ed : d = c
    · subst ed
      simp only [↓reduceIte, St.running.injEq]
      constructor
      · rintro rfl; simp
      · intro hm
        split at hm
        · exact Eq.symm ‹_›
        · exact (hother u _ hm rfl).symm
    · rw [if_neg ed, h7 d u]
      split
      · subst u
        rw [hs]
        simp only [List.mem_cons, Frame.mk.injEq]
        grind
      · rfl
  · intro d
    simp only [upd_apply]
    by_cases ed : d = c
    · subst ed
      simp only [↓reduceIte, reduceCtorEq, false_iff, not_or, not_exists]
      refine ⟨by omega, fun u hu => ?_⟩
      split at hu
      · rcases List.mem_cons.mp hu with h | h
        · cases h
        · exact hn.1 _ h rfl
      · exact absurd (hother u _ hu rfl) ‹_›
    · rw [if_neg ed, h8 d]
      constructor
      · rintro (h | ⟨u, hu⟩)
        · exact .inl h
        · refine .inr ⟨u, ?_⟩
          split
          · subst u
            rw [hs] at hu
            grind
          · exact hu
      · rintro (h | ⟨u, hu⟩)
        · exact .inl h
        · refine .inr ⟨u, ?_⟩
          split at hu
          · subst u
            rw [hs]
            grind
          · exact hu
  · intro u
    simp only [upd_apply, List.mem_filter, decide_eq_true_eq, h9 u]
    by_cases e : u = t
    · simp [e]
    · simp [e]

theorem F.pop (h : F n lo nxt q stk st pend) {t c : Nat} {rest : List Frame} (hs : stk t = ⟨c, true⟩ :: rest) :
    F n lo nxt q (upd stk t rest) (upd st c .done) pend ∧ t ∉ pend := by
  have hmem : (⟨c, true⟩ : Frame) ∈ stk t := by rw [hs]; exact List.mem_cons_self ..
  obtain ⟨h1, h2, h3, h4, h5, h6, h7, h8, h9⟩ := h
  have hc : c < lo := h3 t _ hmem
  have hn := h4 t
  rw [hs] at hn
  simp only [List.map_cons, List.nodup_cons, List.mem_map, not_exists, not_and] at hn
  have hr := h6 t _ _ hs
  have hother : ∀ u f, f ∈ stk u → f.c = c → u = t := fun u f hf e => h5 u t f _ hf hmem e
  have hsub : ∀ u f, f ∈ upd stk t rest u → f ∈ stk u := by
    intro u f hf
    simp only [upd_apply] at hf
    split at hf
    · subst u; rw [hs]; exact List.mem_cons_of_mem _ hf
    · exact hf
  have hgone : ∀ u f, f ∈ upd stk t rest u → f.c ≠ c := by
    intro u f hf e
    have := hother u f (hsub u f hf) e
    subst this
    simp only [upd_apply, ↓reduceIte] at hf
    exact hn.1 f hf e
  have hkeep : ∀ u f, f ∈ stk u → f.c ≠ c → f ∈ upd stk t rest u := by
    intro u f hf hne
    simp only [upd_apply]
    split
    · subst u
      rw [hs] at hf
      rcases List.mem_cons.mp hf with h | h
      · exact absurd (by rw [h]) hne
      · exact h
    · exact hf
  refine ⟨⟨h1, h2, fun u f hf => h3 u f (hsub u f hf), ?_, fun u v f g hf hg e => h5 u v f g (hsub _ _ hf) (hsub _ _ hg) e, ?_, ?_, ?_, ?_⟩, ?_⟩
  · intro u
    simp only [upd_apply]
    split
    · exact hn.2
    · exact h4 u
  · intro u f r hu g hg
    simp only [upd_apply] at hu
    split at hu
    · exact hr g (by rw [hu]; exact List.mem_cons_of_mem _ hg)
    · exact h6 u f r hu g hg
  · intro d u
    simp only [upd_apply st]
    by_cases ed : d = c
    · subst ed
      simp only [↓reduceIte, reduceCtorEq, false_iff]
      exact fun hm => hgone u _ hm rfl
    · rw [if_neg ed, h7 d u]
      exact ⟨fun hm => hkeep u _ hm ed, hsub u _⟩
  · intro d
    simp only [upd_apply st]
    by_cases ed : d = c
    · subst ed
      simp only [↓reduceIte, reduceCtorEq, false_iff, not_or, not_exists]
      exact ⟨by omega, fun u hu => hgone u _ hu rfl⟩
    · rw [if_neg ed, h8 d]
      exact ⟨fun h => h.imp id fun ⟨u, hu⟩ => ⟨u, hkeep u _ hu ed⟩, fun h => h.imp id fun ⟨u, hu⟩ => ⟨u, hsub u _ hu⟩⟩
  · intro u
    rw [h9 u]
    simp only [upd_apply]
    by_cases e : u = t
    · subst u
      simp only [↓reduceIte, hs, List.cons.injEq, Frame.mk.injEq, Bool.true_eq_false, and_false, false_and, exists_false, false_iff, not_exists, not_and]
      intro d r er
      have := hr ⟨d, false⟩ (by rw [er]; exact List.mem_cons_self ..)
      simp at this
    · simp [e]
  · rw [h9 t, hs]
    simp

/-- Where a pulled closure that has not been invoked is. -/
theorem F.held (h : F n lo nxt q stk st pend) {d : Nat} (hw : st d = .waiting) (hd : d < lo) :
    ∃ t rest, stk t = ⟨d, false⟩ :: rest := by
  rcases (h.wait d).mp hw with h' | ⟨t, ht⟩
  · omega
  · refine ⟨t, ?_⟩
    cases hs : stk t with
    | nil => rw [hs] at ht; cases ht
    | cons f rest =>
      rw [hs] at ht
      rcases List.mem_cons.mp ht with e | hm
      · exact ⟨rest, by rw [e]⟩
      · have := h.tail t f rest hs _ hm
        simp at this

/-- Thread `t` runs no closure. -/
theorem F.idle (h : F n lo nxt q stk st pend) {t : Nat} (hs : ∀ f ∈ stk t, f.started = false) (c : Nat) : st c ≠ .running t := by
  intro e
  have := hs _ ((h.run c t).mp e)
  simp at this

theorem F.count (h : F n lo nxt q stk st pend) {k t : Nat} (hk : ∀ d, d < k → st d = .waiting → d < lo ∧ ∀ rest, stk t ≠ ⟨d, false⟩ :: rest)
    {m : List Nat} (hm : ∀ u d rest, u ≠ t → stk u = ⟨d, false⟩ :: rest → u ∈ m) :
    ((List.range k).filter fun d => st d = .waiting).length ≤ m.length := by
  refine length_le_of_owners (fun d u => ∃ rest, stk u = ⟨d, false⟩ :: rest) (List.nodup_range.filter _) ?_ ?_
  · intro d hd
    simp only [List.mem_filter, List.mem_range, decide_eq_true_eq] at hd
    obtain ⟨h1, h2⟩ := hk d hd.1 hd.2
    obtain ⟨u, rest, hu⟩ := h.held hd.2 h1
    refine ⟨u, hm u d rest ?_ hu, rest, hu⟩
    rintro rfl
    exact h2 rest hu
  · rintro a _ b _ u ⟨r, h1⟩ ⟨r', h2⟩
    rw [h1] at h2
    simp only [List.cons.injEq, Frame.mk.injEq] at h2
    exact h2.1.1

/-- The model state `s` (in which `lo` closures have been pulled) agrees with `σ`. -/
structure R (n lo : Nat) (s : State) (σ : Spec) : Prop where
  acc : σ.acc = s.next
  closed : σ.closed = s.closed
  f : F n lo s.next s.q s.stk σ.st σ.pend
  loop : ∀ t, t < n → s.stk t ≠ [] → s.loop t = .loop
  opok : ∀ t, s.op t ≠ .none → n ≤ t ∧ s.stk t = []
  joins : ∀ t i, s.op t = .join i → ∀ w, w < i → w < n → s.loop w = .exited
  ijoins : ∀ t i b d, s.op t = .intrJoin i b d → (∀ w, w < i → w < n → s.loop w = .exited) ∧ (b = true → i < n) ∧ σ.clean = false
  intrs : ∀ t i, s.op t = .intr i → σ.clean = false
  clean : σ.clean = true → ∀ w, w < n → s.intr w = false ∧ (s.loop w = .exited → s.closed = true ∧ s.q = [])
  joined : σ.joined = true → ∀ w, w < n → s.loop w = .exited
  crash : σ.crash = false
  owe : ∀ t, σ.owe t = false
  building : ∀ k, s.phase = .building k → σ.failed = false ∧ σ.joined = false ∧ (∀ t, s.op t = .none) ∧ ∀ w, w < k → s.loop w ≠ .unborn
  failed : ∀ k, s.phase = .failed k → σ.failed = true
  up : s.phase = .up → σ.failed = false ∧ ∀ w, w < n → s.loop w ≠ .unborn

theorem R.idle {s : State} {σ : Spec} (h : R n lo s σ) {t : Nat} (hs : ∀ f ∈ s.stk t, f.started = false) : σ.idle t = true := by
  simp only [Spec.idle, List.all_eq_true, List.mem_range, decide_eq_true_eq]
  exact fun c _ => h.f.idle hs c

theorem R.mem_hands {s : State} {σ : Spec} (h : R n lo s σ) {t u d : Nat} {rest : List Frame} (hne : u ≠ t) (hu : s.stk u = ⟨d, false⟩ :: rest) :
    u ∈ ((List.range n).filter fun w => w ≠ t ∧ σ.idle w) ++ σ.pend.filter fun u => u ≠ t := by
  simp only [List.mem_append, List.mem_filter, List.mem_range, decide_eq_true_eq]
  by_cases hv : viaTry n u rest = true
  · exact .inr ⟨(h.f.pend u).mpr ⟨d, rest, hu, hv⟩, hne⟩
  · simp only [viaTry, Bool.or_eq_true, decide_eq_true_eq, Bool.not_eq_true', List.isEmpty_eq_false_iff, not_or, Nat.not_le, ne_eq, Classical.not_not] at hv
    refine .inl ⟨hv.1, hne, h.idle ?_⟩
    rw [hu, hv.2]
    simp

theorem R.quiet {s : State} {σ : Spec} (h : R n lo s σ) (he : ∀ w, w < n → s.loop w = .exited) : σ.quiet n = true := by
  simp only [Spec.quiet, List.all_eq_true, List.mem_range]
  intro w hw
  refine h.idle ?_
  have := h.loop w hw
  by_cases e : s.stk w = []
  · simp [e]
  · rw [he w hw] at this
    cases this e

theorem R.carriedOut {s : State} {σ : Spec} (h : R n lo s σ) (he : ∀ w, w < n → s.loop w = .exited) (hn : n ≠ 0) (hc : σ.clean = true) :
    σ.carriedOut n = true := by
  have hnil : ∀ w, w < n → s.stk w = [] := by
    intro w hw
    have := h.loop w hw
    by_cases e : s.stk w = []
    · exact e
    · rw [he w hw] at this
      cases this e
  obtain ⟨h1, h2⟩ := (h.clean hc 0 (by omega)).2 (he 0 (by omega))
  have hq := h.f.q
  rw [h2] at hq
  have hlo := h.f.lo_le
  have hlen := congrArg List.length hq
  simp only [List.length_nil, List.length_range'] at hlen
  simp only [Spec.carriedOut, Bool.and_eq_true, decide_eq_true_eq, List.all_eq_true, List.mem_range]
  refine ⟨⟨h.closed.trans h1, ?_⟩, ?_⟩
  · refine h.f.count (t := 0) ?_ ?_
    · intro d hd _
      have := h.acc
      exact ⟨by omega, by simp [hnil 0 (by omega)]⟩
    · intro u d rest _ hu
      have hun : n ≤ u := by
        rcases Nat.lt_or_ge u n with h' | h'
        · rw [hnil u h'] at hu; cases hu
        · exact h'
      simp only [List.mem_filter, decide_eq_true_eq]
      exact ⟨(h.f.pend u).mpr ⟨d, rest, hu, by simp [viaTry, hun]⟩, hun⟩
  · intro c _
    split
    · rename_i t ht
      have hm := (h.f.run c t).mp ht
      simp only [decide_eq_true_eq]
      rcases Nat.lt_or_ge t n with h' | h'
      · rw [hnil t h'] at hm; cases hm
      · exact h'
    · rfl

theorem R.due {s : State} {σ : Spec} (h : R n lo s σ) (e : Event) : σ.due e = false := by
  unfold Spec.due
  split
  · exact h.owe _
  · rfl

/-- Whatever the phase. -/
def Rel (n : Nat) (s : State) (σ : Spec) : Prop := s.phase = .dead ∨ ∃ lo, R n lo s σ

@[simp] theorem upd_upd {α : Type} (f : Nat → α) (i : Nat) (x y : α) : upd (upd f i x) i y = upd f i y := by
  funext j
  simp only [upd_apply]
  split <;> rfl

theorem mayCall_cases {s : State} {t : Nat} (h : mayCall n s t = true) : (s.stk t = [] ∧ n ≤ t ∧ s.op t = .none) ∨ ∃ c rest, s.stk t = ⟨c, true⟩ :: rest := by
  unfold mayCall at h
  split at h
  · rename_i hs
    simp only [Bool.and_eq_true, decide_eq_true_eq, beq_iff_eq] at h
    exact .inl ⟨hs, h⟩
  · rename_i f rest hs
    obtain ⟨c, b⟩ := f
    simp only at h
    exact .inr ⟨c, rest, by rw [hs, h]⟩

theorem sim {s s' : State} {l : Label} {es : List Event} {σ : Spec} (hR : Rel n s σ) (hs : step n s l = some (s', es)) :
    Follows (next false n) (Rel n s') σ es := by
  rcases hR with hd | ⟨lo, h⟩
  · cases l <;> simp [step, spawn, spawnFails, unwind, hd] at hs
  have hcr := h.crash
  have hdue := h.due
  cases l with
  | spawn =>
    simp only [step, spawn] at hs
    (repeat' split at hs) <;> simp only [Option.some.injEq, Prod.mk.injEq, reduceCtorEq] at hs <;> obtain ⟨rfl, rfl⟩ := hs
    · rename_i k hp hk
      obtain ⟨b1, b2, b3, b4⟩ := h.building k hp
      refine .inr ⟨lo, ?_⟩
      have hl := h.loop
      have hc := h.clean
      exact { h with
        loop := by simp only [upd_apply]; grind
        joins := by intro t i e; rw [b3 t] at e; cases e
        ijoins := by intro t i b d e; rw [b3 t] at e; cases e
        clean := by simp only [upd_apply]; grind
        joined := by rw [b2]; simp
        building := by
          intro k' e
          cases e
          refine ⟨b1, b2, b3, ?_⟩
          simp only [upd_apply]
          grind
        failed := by simp
        up := by simp }
    · rename_i k hp hk
      obtain ⟨b1, b2, b3, b4⟩ := h.building k hp
      simp only [Follows, next, hcr, hdue, b1]
      exact .inr ⟨lo, { h with building := by simp, failed := by simp, up := fun _ => ⟨b1, fun w hw => b4 w (by omega)⟩ }⟩
  | spawnFails =>
    simp only [step, spawnFails] at hs
    (repeat' split at hs) <;> simp only [Option.some.injEq, Prod.mk.injEq, reduceCtorEq] at hs
    obtain ⟨rfl, rfl⟩ := hs
    rename_i k hp hk
    simp only [Follows, next, hcr, hdue]
    have hc := h.clean
    exact .inr ⟨lo, { h with crash := rfl, closed := rfl, clean := by grind, building := by simp, failed := by simp, up := by simp }⟩
  | unwind =>
    simp only [step, unwind] at hs
    (repeat' split at hs) <;> simp only [Option.some.injEq, Prod.mk.injEq, reduceCtorEq] at hs <;> obtain ⟨rfl, rfl⟩ := hs
    · rename_i k hp hk
      simp only [Follows, next, hcr, hdue, h.failed k hp]
      exact .inr ⟨lo, { h with building := by simp, failed := by simp, up := by simp }⟩
    · rename_i k hp hk
      simp only [Follows, next, hcr, hdue, h.failed k hp]
      exact .inl rfl
  | work w =>
    simp only [step, work] at hs
    split at hs
    · cases hs
    split at hs
    rotate_left
    · cases hs
    rename_i hph hw
    obtain ⟨hw, hst⟩ := hw
    have hop : s.op w = .none := by
      by_cases e : s.op w = .none
      · exact e
      · have := (h.opok w e).1; omega
    have hcl := h.clean
    have hbu := h.building
    have hup := h.up
    have hlp := h.loop
    (repeat' split at hs) <;> simp only [Option.some.injEq, Prod.mk.injEq, reduceCtorEq] at hs <;> obtain ⟨rfl, rfl⟩ := hs
    · rename_i hl c q hq
      have hf := h.f
      rw [hq] at hf
      refine .inr ⟨lo + 1, { h with
        f := by
          have := hf.pull w (by simp [hst]) (pend' := σ.pend) (by
            intro u
            simp [hst, viaTry]
            omega)
          rwa [hst] at this
        loop := by simp only [upd_apply]; grind
        opok := ?_, clean := by grind }⟩
      intro t ht
      have := h.opok t ht
      simp only [upd_apply]
      grind
    · refine .inr ⟨lo, { h with
        loop := by simp only [upd_apply]; grind
        joins := ?_, ijoins := ?_, clean := ?_, joined := ?_, building := ?_, up := ?_ }⟩ <;> simp only [upd_apply] <;> grind [R]
    · refine .inr ⟨lo, { h with
        loop := by simp only [upd_apply]; grind
        joins := ?_, ijoins := ?_, clean := ?_, joined := ?_, building := ?_, up := ?_ }⟩ <;> simp only [upd_apply] <;> grind [R]
    · have := h.joined
      have := h.joins
      have := h.ijoins
      refine .inr ⟨lo, { h with
        loop := by simp only [upd_apply]; grind
        joins := ?_, ijoins := ?_, clean := ?_, joined := ?_, building := ?_, up := ?_ }⟩ <;> simp only [upd_apply] <;> grind
    · refine .inr ⟨lo, { h with
        loop := by simp only [upd_apply]; grind
        joins := ?_, ijoins := ?_, clean := ?_, joined := ?_, building := ?_, up := ?_ }⟩ <;> simp only [upd_apply] <;> grind [R]
    · have := h.joined
      have := h.joins
      have := h.ijoins
      refine .inr ⟨lo, { h with
        loop := by simp only [upd_apply]; grind
        joins := ?_, ijoins := ?_, clean := ?_, joined := ?_, building := ?_, up := ?_ }⟩ <;> simp only [upd_apply] <;> grind
  | submit t =>
    simp only [step] at hs
    split at hs
    rotate_left
    · cases hs
    rename_i hp
    simp only [submit, Option.some.injEq] at hs
    split at hs <;> simp only [Prod.mk.injEq] at hs <;> obtain ⟨rfl, rfl⟩ := hs
    · rename_i hc
      simp only [Follows, next, hcr, hdue, h.closed, hc]
      by_cases hd : σ.dying = true ∧ n ≤ t
      · simp [hd]
      · simp only [hd, ↓reduceIte, Bool.false_eq_true]
        exact .inr ⟨lo, h⟩
    · rename_i hc
      simp only [Follows, next, hcr, hdue, h.closed, hc, h.acc]
      by_cases hd : σ.dying = true ∧ n ≤ t
      · simp [hd]
      · simp only [hd, ↓reduceIte, Bool.false_eq_true, and_self, true_and]
        have hcl := h.clean
        exact .inr ⟨lo, { h with crash := rfl, acc := rfl, closed := by simp [h.closed], f := h.f.submit, clean := by grind }⟩
  | close t =>
    simp only [step] at hs
    split at hs <;> simp only [Option.some.injEq, Prod.mk.injEq, reduceCtorEq] at hs
    obtain ⟨rfl, rfl⟩ := hs
    simp only [Follows, next, hcr, hdue]
    have hcl := h.clean
    exact .inr ⟨lo, { h with crash := rfl, closed := rfl, clean := by grind }⟩
  | isClosed t =>
    simp only [step] at hs
    split at hs <;> simp only [Option.some.injEq, Prod.mk.injEq, reduceCtorEq] at hs
    obtain ⟨rfl, rfl⟩ := hs
    simp only [Follows, next, hcr, hdue, h.closed, Bool.false_eq_true, ↓reduceIte]
    exact .inr ⟨lo, h⟩
  | tryExec t =>
    simp only [step] at hs
    split at hs
    rotate_left
    · cases hs
    rename_i hp
    have htop : ∀ f rest, s.stk t = f :: rest → f.started = true := by
      rcases mayCall_cases hp.2 with ⟨e, _⟩ | ⟨c, rest, e⟩ <;> rw [e] <;> simp
    simp only [tryExec, Option.some.injEq] at hs
    split at hs <;> simp only [Prod.mk.injEq] at hs <;> obtain ⟨rfl, rfl⟩ := hs
    · rename_i c q hq
      simp only [Follows, next, hcr, hdue]
      by_cases hd : σ.dying = true ∧ n ≤ t
      · simp [hd]
      · simp only [hd, ↓reduceIte, Bool.false_eq_true]
        have hf := h.f
        rw [hq] at hf
        have hcl := h.clean
        have hlp := h.loop
        have hop := h.opok
        refine .inr ⟨lo + 1, { h with
          crash := rfl
          f := hf.pull t htop ?_
          loop := ?_
          opok := ?_, clean := by grind }⟩
        · intro u
          rcases mayCall_cases hp.2 with ⟨e, hn, _⟩ | ⟨c, rest, e⟩
          · simp [viaTry, e, hn]; grind
          · simp [viaTry, e]; grind
        · rcases mayCall_cases hp.2 with ⟨e, hn, _⟩ | ⟨c, rest, e⟩ <;> simp only [upd_apply] <;> grind
        · rcases mayCall_cases hp.2 with ⟨e, hn, _⟩ | ⟨c, rest, e⟩ <;> simp only [upd_apply] <;> grind
    · rename_i hq
      simp only [Follows, next, hcr, hdue]
      by_cases hd : σ.dying = true ∧ n ≤ t
      · simp [hd]
      · simp only [hd, ↓reduceIte, Bool.false_eq_true]
        have hb : σ.behind σ.acc ≤ σ.hands n t := by
          unfold Spec.behind Spec.hands
          rw [← List.length_append]
          refine h.f.count (t := t) ?_ fun u d rest hne hu => h.mem_hands hne hu
          intro d hd hw
          have hlen := congrArg List.length h.f.q
          rw [hq] at hlen
          simp only [List.length_nil, List.length_range'] at hlen
          have := h.acc
          exact ⟨by omega, fun rest e => by simpa using htop _ _ e⟩
        simp only [hb, ↓reduceIte]
        exact .inr ⟨lo, h⟩
  | start t =>
    simp only [step] at hs
    split at hs
    rotate_left
    · cases hs
    rename_i hp
    simp only [start] at hs
    split at hs <;> simp only [Option.some.injEq, Prod.mk.injEq, reduceCtorEq] at hs
    obtain ⟨rfl, rfl⟩ := hs
    rename_i c rest hst
    have hmem : (⟨c, false⟩ : Frame) ∈ s.stk t := by rw [hst]; exact List.mem_cons_self ..
    have hlt := h.f.lt t _ hmem
    have hlo := h.f.lo_le
    have hw : σ.st c = .waiting := (h.f.wait c).mpr (.inr ⟨t, hmem⟩)
    have hb : σ.behind c ≤ σ.hands n t := by
      unfold Spec.behind Spec.hands
      rw [← List.length_append]
      refine h.f.count (t := t) ?_ fun u d rest hne hu => h.mem_hands hne hu
      intro d hd hw
      simp only at hlt
      refine ⟨by omega, fun r e => ?_⟩
      rw [hst] at e
      simp only [List.cons.injEq, Frame.mk.injEq] at e
      omega
    have hwho : t ∈ σ.pend ∨ t < n ∧ σ.idle t = true := by
      by_cases hv : viaTry n t rest = true
      · exact .inl ((h.f.pend t).mpr ⟨c, rest, hst, hv⟩)
      · simp only [viaTry, Bool.or_eq_true, decide_eq_true_eq, Bool.not_eq_true', List.isEmpty_eq_false_iff, not_or, Nat.not_le, ne_eq, Classical.not_not] at hv
        refine .inr ⟨hv.1, h.idle ?_⟩
        rw [hst, hv.2]
        simp
    have hj : σ.joined = true → n ≤ t := by
      intro hj
      rcases Nat.lt_or_ge t n with h' | h'
      · have h1 := h.joined hj t h'
        have h2 := h.loop t h' (by simp [hst])
        rw [h1] at h2; cases h2
      · exact h'
    simp only at hlt
    simp only [Follows, next, hcr, hdue, Bool.false_eq_true, ↓reduceIte, hw, hb, show c < σ.acc from by rw [h.acc]; omega, true_and, hj]
    have hlp := h.loop
    have hop := h.opok
    rw [if_pos ⟨fun e => hj e, hwho⟩]
    exact .inr ⟨lo, { h with crash := rfl, f := h.f.start hst, loop := by simp only [upd_apply]; grind, opok := by simp only [upd_apply]; grind }⟩
  | finish t how =>
    simp only [step] at hs
    split at hs
    rotate_left
    · cases hs
    rename_i hp
    simp only [finish] at hs
    split at hs
    rotate_left
    · cases hs
    rename_i c rest hst
    have hmem : (⟨c, true⟩ : Frame) ∈ s.stk t := by rw [hst]; exact List.mem_cons_self ..
    have hr : σ.st c = .running t := (h.f.run c t).mpr hmem
    obtain ⟨hf, hpend⟩ := h.f.pop hst
    have hlp := h.loop
    have hop := h.opok
    have hidle : ∀ o b, Spec.idle { σ with st := upd σ.st c .done, crash := b, owe := o } t = rest.isEmpty := by
      intro o b
      rw [Bool.eq_iff_iff]
      simp only [Spec.idle, List.all_eq_true, List.mem_range, decide_eq_true_eq, List.isEmpty_iff]
      constructor
      · intro hall
        cases hrest : rest with
        | nil => rfl
        | cons g r =>
          have hg := h.f.tail t _ _ hst g (by rw [hrest]; exact List.mem_cons_self ..)
          obtain ⟨d, b⟩ := g
          simp only at hg
          subst hg
          have hm : (⟨d, true⟩ : Frame) ∈ upd s.stk t rest t := by simp [upd_apply, hrest]
          have h1 := (hf.run d t).mpr hm
          have h2 := hf.lt t _ hm
          have := hf.lo_le
          have := h.acc
          exact absurd h1 (hall d (by simp only at h2; omega))
      · rintro rfl d _
        exact hf.idle (by simp [upd_apply]) d
    cases how with
    | ok =>
      simp only [Option.some.injEq, Prod.mk.injEq] at hs
      obtain ⟨rfl, rfl⟩ := hs
      have hnew : Rel n { s with stk := upd s.stk t rest } { σ with st := upd σ.st c .done, crash := false, owe := upd σ.owe t false } :=
        .inr ⟨lo, { h with crash := rfl, owe := by have := h.owe; simp only [upd_apply]; grind, f := hf, loop := by simp only [upd_apply]; grind, opok := by simp only [upd_apply]; grind }⟩
      have hid : Spec.idle { σ with st := upd σ.st c .done } t = rest.isEmpty := hidle σ.owe σ.crash
      split
      · rename_i hv
        simp only [viaTry] at hv
        simp only [Follows, next, hcr, hdue, hr, Bool.false_eq_true, ↓reduceIte, hidle, hv, Spec.due, Event.by, upd_apply, upd_upd, h.owe]
        exact hnew
      · rename_i hv
        simp only [viaTry, Bool.not_eq_true] at hv
        simp only [Follows, next, hcr, hdue, hr, Bool.false_eq_true, ↓reduceIte, hidle, hv]
        exact hnew
    | threw =>
      simp only [Option.some.injEq, Prod.mk.injEq] at hs
      obtain ⟨rfl, rfl⟩ := hs
      simp only [Follows, next, hcr, hdue, hr, Bool.false_eq_true, ↓reduceIte]
      exact .inl rfl
    | interrupted =>
      simp only at hs
      split at hs <;> rename_i hv <;> simp only [Option.some.injEq, Prod.mk.injEq] at hs <;> obtain ⟨rfl, rfl⟩ := hs
      · simp only [viaTry] at hv
        simp only [Follows, next, hcr, hdue, hr, Bool.false_eq_true, ↓reduceIte]
        rw [hidle, hv]
        exact .inl rfl
      · simp only [viaTry, Bool.not_eq_true] at hv
        simp only [Follows, next, hcr, hdue, hr, Bool.false_eq_true, ↓reduceIte]
        rw [hidle, hv]
        simp only [Bool.or_eq_false_iff, decide_eq_false_iff_not, Bool.not_eq_false'] at hv
        have he := hv.2
        simp only [List.isEmpty_iff] at he
        subst he
        have h1 := h.joins
        have h2 := h.ijoins
        have h3 := h.joined
        have h4 := h.building
        have h5 := h.up
        exact .inr ⟨lo, { h with
          f := hf, loop := by simp only [upd_apply]; grind, opok := by simp only [upd_apply]; grind
          joins := by simp only [upd_apply]; grind
          ijoins := by simp only [upd_apply]; grind
          intrs := by simp
          clean := by simp
          crash := rfl
          joined := by simp only [upd_apply]; grind
          building := by simp only [upd_apply]; grind
          up := by simp only [upd_apply]; grind }⟩
  | swallow t =>
    simp only [step] at hs
    split at hs <;> simp only [Option.some.injEq, Prod.mk.injEq, reduceCtorEq] at hs
    obtain ⟨rfl, rfl⟩ := hs
    have hcl := h.clean
    exact .inr ⟨lo, { h with clean := by simp only [upd_apply]; grind }⟩
  | join t =>
    simp only [step, begin] at hs
    (repeat' split at hs) <;> simp only [Option.some.injEq, Prod.mk.injEq, reduceCtorEq] at hs
    obtain ⟨rfl, rfl⟩ := hs
    simp only [Follows, next, hcr, hdue]
    by_cases hd : σ.dying = true ∧ n ≤ t
    · simp [hd]
    · simp only [hd, ↓reduceIte, Bool.false_eq_true]
      have h0 := h.opok
      have h1 := h.joins
      have h2 := h.ijoins
      have h3 := h.intrs
      have h4 := h.building
      exact .inr ⟨lo, { h with
        opok := by simp only [upd_apply]; grind
        joins := by simp only [upd_apply]; grind
        ijoins := by simp only [upd_apply]; grind
        intrs := by simp only [upd_apply]; grind
        building := by simp only [upd_apply]; grind }⟩
  | interrupt t =>
    simp only [step, begin] at hs
    (repeat' split at hs) <;> simp only [Option.some.injEq, Prod.mk.injEq, reduceCtorEq] at hs
    obtain ⟨rfl, rfl⟩ := hs
    simp only [Follows, next, hcr, hdue]
    by_cases hd : σ.dying = true ∧ n ≤ t
    · simp [hd]
    · simp only [hd, ↓reduceIte, Bool.false_eq_true]
      have h0 := h.opok
      have h1 := h.joins
      have h2 := h.ijoins
      have h3 := h.intrs
      have h4 := h.building
      exact .inr ⟨lo, { h with
        crash := rfl
        opok := by simp only [upd_apply]; grind
        joins := by simp only [upd_apply]; grind
        ijoins := by simp only [upd_apply]; grind
        intrs := by simp
        clean := by simp
        building := by simp only [upd_apply]; grind }⟩
  | interruptJoin t =>
    simp only [step, begin] at hs
    (repeat' split at hs) <;> simp only [Option.some.injEq, Prod.mk.injEq, reduceCtorEq] at hs
    obtain ⟨rfl, rfl⟩ := hs
    simp only [Follows, next, hcr, hdue]
    by_cases hd : σ.dying = true ∧ n ≤ t
    · simp [hd]
    · simp only [hd, ↓reduceIte, Bool.false_eq_true]
      have h0 := h.opok
      have h1 := h.joins
      have h2 := h.ijoins
      have h3 := h.intrs
      have h4 := h.building
      exact .inr ⟨lo, { h with
        crash := rfl
        opok := by simp only [upd_apply]; grind
        joins := by simp only [upd_apply]; grind
        ijoins := by simp only [upd_apply]; grind
        intrs := by simp
        clean := by simp
        building := by simp only [upd_apply]; grind }⟩
  | destroy t =>
    simp only [step, begin] at hs
    (repeat' split at hs) <;> simp only [Option.map_some, Option.map_none, Option.some.injEq, Prod.mk.injEq, reduceCtorEq] at hs
    obtain ⟨rfl, rfl⟩ := hs
    simp only [Follows, next, hcr, hdue]
    by_cases hd : σ.dying = true ∧ n ≤ t
    · simp [hd]
    · simp only [hd, ↓reduceIte, Bool.false_eq_true, Bool.and_false]
      have h0 := h.opok
      have h1 := h.joins
      have h2 := h.ijoins
      have h3 := h.intrs
      have h4 := h.building
      exact .inr ⟨lo, { h with
        crash := rfl
        closed := rfl
        opok := by simp only [upd_apply]; grind
        joins := by simp only [upd_apply]; grind
        ijoins := by simp only [upd_apply]; grind
        intrs := by simp
        clean := by simp
        building := by simp only [upd_apply]; grind }⟩
  | go t =>
    simp only [step] at hs
    split at hs
    rotate_left
    · cases hs
    rename_i hp
    have h0 := h.opok
    have h1 := h.joins
    have h2 := h.ijoins
    have h3 := h.intrs
    have h4 := h.building
    have h5 := h.clean
    have hf := h.failed
    have hu := h.up
    simp only [go] at hs
    split at hs
    · cases hs
    · rename_i i hop
      split at hs
      · rename_i hi
        split at hs <;> simp only [Option.some.injEq, Prod.mk.injEq, reduceCtorEq] at hs
        obtain ⟨rfl, rfl⟩ := hs
        rename_i he
        have hx : ∀ w, w < i + 1 → w < n → s.loop w = .exited := fun w hw hn =>
          (Nat.lt_succ_iff_lt_or_eq.mp hw).elim (fun h => h1 t i hop w h hn) fun h => h ▸ he
        exact .inr ⟨lo, { h with
          opok := by simp only [upd_apply]; grind
          joins := by simp only [upd_apply]; grind
          ijoins := by simp only [upd_apply]; grind
          intrs := by simp only [upd_apply]; grind
          building := by simp only [upd_apply]; grind }⟩
      · simp only [Option.some.injEq, Prod.mk.injEq] at hs
        obtain ⟨rfl, rfl⟩ := hs
        have hex : ∀ w, w < n → s.loop w = .exited := fun w hw => h1 t i hop w (by omega) hw
        simp only [Follows, next, hcr, hdue, Bool.false_eq_true, ↓reduceIte, h.quiet hex, true_and]
        rw [if_pos fun hn hc => h.carriedOut hex hn hc]
        exact .inr ⟨lo, { h with
          crash := rfl
          joined := fun _ => hex
          opok := by simp only [upd_apply]; grind
          joins := by simp only [upd_apply]; grind
          ijoins := by simp only [upd_apply]; grind
          intrs := by simp only [upd_apply]; grind
          building := by simp only [upd_apply]; grind }⟩
    · rename_i i hop
      split at hs <;> simp only [Option.some.injEq, Prod.mk.injEq, reduceCtorEq] at hs <;> obtain ⟨rfl, rfl⟩ := hs
      · exact .inr ⟨lo, { h with
          opok := by simp only [setIntr, upd_apply]; grind
          joins := by simp only [setIntr, upd_apply]; grind
          ijoins := by simp only [setIntr, upd_apply]; grind
          intrs := by simp only [setIntr, upd_apply]; grind
          clean := by simp only [setIntr, upd_apply]; grind
          building := by simp only [setIntr, upd_apply]; grind }⟩
      · simp only [Follows, next, hcr, hdue, Bool.false_eq_true, ↓reduceIte]
        exact .inr ⟨lo, { h with
          opok := by simp only [upd_apply]; grind
          joins := by simp only [upd_apply]; grind
          ijoins := by simp only [upd_apply]; grind
          intrs := by simp only [upd_apply]; grind
          building := by simp only [upd_apply]; grind }⟩
    · rename_i i d hop
      have hcl := (h2 t _ _ _ hop).2.2
      split at hs
      · simp only [Option.some.injEq, Prod.mk.injEq] at hs
        obtain ⟨rfl, rfl⟩ := hs
        exact .inr ⟨lo, { h with
          opok := by simp only [setIntr, upd_apply]; grind
          joins := by simp only [setIntr, upd_apply]; grind
          ijoins := by simp only [setIntr, upd_apply]; grind
          intrs := by simp only [setIntr, upd_apply]; grind
          clean := by simp [hcl]
          building := by simp only [setIntr, upd_apply]; grind }⟩
      · have hex : ∀ w, w < n → s.loop w = .exited := fun w hw => (h2 t _ _ _ hop).1 w (by omega) hw
        split at hs <;> simp only [Option.some.injEq, Prod.mk.injEq, reduceCtorEq] at hs <;> obtain ⟨rfl, rfl⟩ := hs
        · simp only [Follows, next, hcr, hdue, Bool.false_eq_true, ↓reduceIte, h.quiet hex, true_and, hcl]
          rw [if_pos (by simp)]
          exact .inr ⟨lo, { h with
            crash := rfl
            joined := fun _ => hex
            opok := by simp only [upd_apply]; grind
            joins := by simp only [upd_apply]; grind
            ijoins := by simp only [upd_apply]; grind
            intrs := by simp only [upd_apply]; grind
            clean := by simp
            building := by simp
            failed := by simp
            up := by simp }⟩
        · simp only [Follows, next, hcr, hdue, Bool.false_eq_true, ↓reduceIte, h.quiet hex]
          exact .inr ⟨lo, { h with
            crash := rfl
            joined := fun _ => hex
            opok := by simp only [upd_apply]; grind
            joins := by simp only [upd_apply]; grind
            ijoins := by simp only [upd_apply]; grind
            intrs := by simp only [upd_apply]; grind
            building := by simp only [upd_apply]; grind }⟩
    · rename_i i d hop
      split at hs <;> simp only [Option.some.injEq, Prod.mk.injEq, reduceCtorEq] at hs
      obtain ⟨rfl, rfl⟩ := hs
      rename_i he
      have hx : ∀ w, w < i + 1 → w < n → s.loop w = .exited := fun w hw hn =>
        (Nat.lt_succ_iff_lt_or_eq.mp hw).elim (fun h => (h2 t _ _ _ hop).1 w h hn) fun h => h ▸ he
      exact .inr ⟨lo, { h with
        opok := by simp only [upd_apply]; grind
        joins := by simp only [upd_apply]; grind
        ijoins := by simp only [upd_apply]; grind
        intrs := by simp only [upd_apply]; grind
        building := by simp only [upd_apply]; grind }⟩

theorem rel_init : Rel n init Spec.init := by
  refine .inr ⟨0, ⟨rfl, rfl, ⟨Nat.le_refl _, rfl, ?_, ?_, ?_, ?_, ?_, ?_, ?_⟩, ?_, ?_, ?_, ?_, ?_, ?_, ?_, rfl, ?_, ?_, ?_, ?_⟩⟩ <;> simp [init, Spec.init]

end Verif.ThreadPool
