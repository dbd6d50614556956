import Verif.SerialExecutor.Spec
import Verif.Core.Count
/-! # Every history of a serial executor is allowed -/

set_option linter.unusedSimpArgs false

namespace Verif.SerialExecutor

def Act.holds : Act → Nat → Prop
  | .pulled c, d => c = d
  | .waiting c, d => c = d
  | _, _ => False

@[grind =] theorem holds_none (d : Nat) : Act.holds .none d = False := rfl
@[grind =] theorem holds_called (d : Nat) : Act.holds .called d = False := rfl
@[grind =] theorem holds_pulled (c d : Nat) : Act.holds (.pulled c) d = (c = d) := rfl
@[grind =] theorem holds_waiting (c d : Nat) : Act.holds (.waiting c) d = (c = d) := rfl

def Job.st : Job → St
  | .idle => .waiting
  | .handed => .waiting
  | .running => .running
  | .set => .done

attribute [grind =] Job.st

/-- The closures numbered from `lo` on are in the queue; `dn` have ended, and `rel` of them are not waited for any more. -/
structure R (lo : Nat) (dn rel : List Nat) (s : State) (σ : Spec) : Prop where
  acc : σ.acc = s.next
  closed : σ.closed = s.closed
  exClosed : σ.exClosed = s.exClosed
  crash : σ.crash = false
  lo_le : lo ≤ s.next
  q : s.q = List.range' lo (s.next - lo)
  st : ∀ c, σ.st c = (s.job c).st
  idle : ∀ c, lo ≤ c → s.job c = .idle
  pulled : ∀ k c, s.act k = .pulled c → c < lo ∧ s.job c = .idle
  waiting : ∀ k c, s.act k = .waiting c → c < lo ∧ s.job c ≠ .idle
  held : ∀ c, c < lo → s.job c ≠ .set → ∃ k, (s.act k).holds c
  uniq : ∀ k k' c, (s.act k).holds c → (s.act k').holds c → k = k'
  nodup : σ.helpers.Nodup
  helpers : ∀ k, k ∈ σ.helpers ↔ k ≠ .worker ∧ s.act k ≠ .none
  inner : ∀ c, s.act (.closure c) ≠ .none → s.job c = .running
  older : ∀ c d, (s.act (.closure c)).holds d → c < d
  test : s.pc = .test → s.act .worker = .none
  first : s.pc = .first → s.act .worker ≠ .none
  second : s.pc = .second → s.closed = true
  exited : s.pc = .exited → s.closed = true ∧ s.q = [] ∧ s.act .worker = .none
  dying : σ.dying = true ↔ ∃ t, s.phase = .dying t
  alone : σ.dying = true → s.closed = true ∧ ∀ t, s.act (.client t) = .none
  over : dn.Nodup ∧ dn.length = σ.ended ∧ ∀ c, c ∈ dn ↔ s.job c = .set
  freed : rel.Nodup ∧ σ.helped ≤ rel.length ∧ ∀ c ∈ rel, c ∈ dn ∧ ∀ k, ¬ (s.act k).holds c
  run : running s = true

def Rel (s : State) (σ : Spec) : Prop := running s = false ∨ ∃ lo dn rel, R lo dn rel s σ

theorem rel_init : Rel init Spec.init := by
  refine .inr ⟨0, [], [], ?_⟩
  constructor <;> simp [init, Spec.init, Act.holds, Job.st, running]

variable {lo : Nat} {dn rel : List Nat} {s : State} {σ : Spec}

/-- Whoever holds an unfinished closure is not `k`; so there are at most as many of them as helpers. -/
theorem R.count (h : R lo dn rel s σ) (l : List Nat) (hn : l.Nodup) {k : Caller} (hk : k = .worker ∨ k ∈ σ.helpers)
    (hl : ∀ d ∈ l, d < lo ∧ s.job d ≠ .set ∧ ¬ (s.act k).holds d) : l.length ≤ σ.helpers.length := by
  have hm : k ∈ Caller.worker :: σ.helpers := by rcases hk with e | e <;> simp [e]
  have := length_le_of_owners (l := l) (m := (Caller.worker :: σ.helpers).erase k) (fun d k => (s.act k).holds d) hn
    (fun d hd => by
      obtain ⟨h1, h2, h3⟩ := hl d hd
      obtain ⟨k', hk'⟩ := h.held d h1 h2
      refine ⟨k', ?_, hk'⟩
      have hne : k' ≠ k := fun e => h3 (e ▸ hk')
      refine (List.mem_erase_of_ne hne).mpr ?_
      by_cases hw : k' = .worker
      · simp [hw]
      · refine List.mem_cons_of_mem _ ((h.helpers k').mpr ⟨hw, fun e => ?_⟩)
        rw [e] at hk'
        exact hk')
    (fun a _ b _ k ha hb => by
      cases hk : s.act k <;> simp only [hk, Act.holds] at ha hb <;> omega)
  rw [List.length_erase_of_mem hm] at this
  simpa using this

theorem R.before_le (h : R lo dn rel s σ) {c : Nat} (hc : s.job c = .handed) : c < σ.acc ∧ σ.before c ≤ σ.helpers.length := by
  have hlo : c < lo := by
    have := h.idle c
    grind
  obtain ⟨k, hk⟩ := h.held c hlo (by simp [hc])
  refine ⟨by have := h.acc; have := h.lo_le; omega, ?_⟩
  refine h.count _ ((List.nodup_range).filter _) (k := k) ?_ ?_
  · by_cases hw : k = .worker
    · exact .inl hw
    · refine .inr ((h.helpers k).mpr ⟨hw, fun e => ?_⟩)
      rw [e] at hk
      exact hk
  · intro d hd
    simp only [List.mem_filter, decide_eq_true_eq] at hd
    obtain ⟨_, hne, hor⟩ := hd
    have hst := h.st d
    have hi := h.idle d
    refine ⟨?_, ?_, fun hk' => ?_⟩
    · rcases hor with e | e
      · grind
      · omega
    · rcases hor with e | e <;> grind
    · cases ha : s.act k <;> simp only [ha, Act.holds] at hk hk' <;> omega

theorem R.pull (h : R lo dn rel s σ) {c : Nat} {q : List Nat} (hq : s.q = c :: q) {k : Caller} (hk : s.act k = .called) :
    R (lo + 1) dn rel { s with q := q, act := upd s.act k (.pulled c) } σ := by
  have hq' := h.q
  have hl := h.lo_le
  rw [hq] at hq'
  obtain ⟨rfl, hlt, hq''⟩ : c = lo ∧ lo < s.next ∧ q = List.range' (lo + 1) (s.next - (lo + 1)) := by
    cases hn : s.next - lo with
    | zero => rw [hn] at hq'; simp at hq'
    | succ m =>
      rw [hn, List.range'_succ] at hq'
      simp only [List.cons.injEq] at hq'
      refine ⟨hq'.1, by omega, ?_⟩
      rw [hq'.2]
      congr 1
      omega
  have h8 := h.idle
  have h9 := h.pulled
  have h10 := h.waiting
  have h11 := h.held
  have h12 := h.uniq
  refine { h with lo_le := hlt, q := hq'', idle := fun d hd => h8 d (by omega), pulled := ?_, waiting := ?_, held := ?_, uniq := ?_, helpers := ?_, inner := ?_, older := ?_,
                  test := ?_, first := ?_, exited := ?_, alone := ?_, freed := ?_ } <;> simp only [upd_apply]
  · grind
  · grind
  · intro d hd hs
    by_cases e : d = c
    · exact ⟨k, by simp [Act.holds, e]⟩
    · obtain ⟨k', hk'⟩ := h11 d (by omega) hs
      exact ⟨k', by grind⟩
  · intro k1 k2 d hk1 hk2
    have := h9 k1
    have := h9 k2
    have := h10 k1
    have := h10 k2
    have := h12 k1 k2 d
    cases e1 : s.act k1 <;> cases e2 : s.act k2 <;> grind
  · have := h.helpers
    grind
  · have := h.inner
    grind
  · have := h.inner
    have := h.older
    grind
  · have := h.test
    grind
  · have := h.first
    grind
  · have := h.exited
    grind
  · have := h.alone
    grind
  · have h24 := h.freed
    refine ⟨h24.1, h24.2.1, fun d hd => ⟨(h24.2.2 d hd).1, fun k' => ?_⟩⟩
    have := (h24.2.2 d hd).2 k'
    have := (h.over.2.2 d).mp (h24.2.2 d hd).1
    have := h8 c (Nat.le_refl _)
    grind

theorem R.hand (h : R lo dn rel s σ) {c : Nat} {k : Caller} (hk : s.act k = .pulled c) :
    R lo dn rel { s with job := upd s.job c .handed, act := upd s.act k (.waiting c) } σ := by
  have hc := h.pulled k c hk
  have h9 := h.pulled
  have h10 := h.waiting
  have h11 := h.held
  have h12 := h.uniq
  have hh : (s.act k).holds c := by rw [hk]; rfl
  refine { h with st := ?_, idle := ?_, pulled := ?_, waiting := ?_, held := ?_, uniq := ?_, helpers := ?_, inner := ?_, older := ?_,
                  test := ?_, first := ?_, exited := ?_, alone := ?_, over := ?_, freed := ?_ } <;> simp only [upd_apply]
  · have := h.st
    grind
  · have := h.idle
    grind
  · intro k' d hd
    have := h12 k k' c hh
    grind
  · grind
  · intro d hd hs
    by_cases e : d = c
    · exact ⟨k, by simp [Act.holds, e]⟩
    · obtain ⟨k', hk'⟩ := h11 d hd (by simpa [e] using hs)
      exact ⟨k', by grind⟩
  · intro k1 k2 d hk1 hk2
    have := h12 k1 k2 d
    have := h12 k k1 d
    have := h12 k k2 d
    grind
  · have := h.helpers
    grind
  · have := h.inner
    grind
  · have := h.older
    grind
  · have := h.test
    grind
  · have := h.first
    grind
  · have := h.exited
    grind
  · have := h.alone
    grind
  · have := h.over
    grind
  · have h24 := h.freed
    refine ⟨h24.1, h24.2.1, fun d hd => ⟨(h24.2.2 d hd).1, fun k' => ?_⟩⟩
    have := (h24.2.2 d hd).2 k'
    have := (h24.2.2 d hd).2 k
    grind

/-- A `try_executing_one` returns. -/
theorem R.release (h : R lo dn rel s σ) {k : Caller} (hk : s.act k = .called ∨ ∃ c, s.act k = .waiting c ∧ s.job c = .set) {rel' : List Nat} {hs : List Caller} {n : Nat} {p : Pc}
    (hs1 : hs.Nodup) (hs2 : ∀ k', k' ∈ hs ↔ k' ∈ σ.helpers ∧ k' ≠ k) (hp : k ≠ .worker → p = s.pc)
    (hw : k = .worker → p ≠ .first ∧ (p = .second → s.closed = true) ∧ (p = .exited → s.closed = true ∧ s.q = []))
    (hr : rel'.Nodup ∧ n ≤ rel'.length ∧ ∀ c ∈ rel', c ∈ dn ∧ ∀ k', (s.act k').holds c → k' = k) :
    R lo dn rel' { s with pc := p, act := upd s.act k .none } { σ with helpers := hs, helped := n } := by
  have hset : ∀ c, (s.act k).holds c → s.job c = .set := by
    intro c hc
    rcases hk with e | ⟨d, e, hd⟩
    · rw [e] at hc; exact hc.elim
    · rw [e] at hc; cases hc; exact hd
  have hne : s.act k ≠ .none := by rcases hk with e | ⟨d, e, hd⟩ <;> simp [e]
  refine { h with pulled := ?_, waiting := ?_, held := ?_, uniq := ?_, nodup := hs1, helpers := ?_, inner := ?_, older := ?_,
                  test := ?_, first := ?_, second := ?_, exited := ?_, alone := ?_, freed := ?_ } <;> simp only [upd_apply]
  · have := h.pulled
    grind
  · have := h.waiting
    grind
  · intro d hd hs
    obtain ⟨k', hk'⟩ := h.held d hd hs
    have := hset d
    exact ⟨k', by grind⟩
  · have := h.uniq
    grind
  · have := h.helpers
    grind
  · have := h.inner
    grind
  · have := h.older
    grind
  · have := h.test
    grind
  · have := h.first
    grind
  · have := h.second
    grind
  · have := h.exited
    grind
  · have := h.alone
    grind
  · refine ⟨hr.1, hr.2.1, fun d hd => ⟨(hr.2.2 d hd).1, fun k' hk' => ?_⟩⟩
    have := (hr.2.2 d hd).2 k'
    grind

/-- A caller enters `try_executing_one`. -/
theorem R.call (h : R lo dn rel s σ) {k : Caller} (hk : s.act k = .none) {hs : List Caller} {p : Pc}
    (hs1 : hs.Nodup) (hs2 : ∀ k', k' ∈ hs ↔ k' ≠ .worker ∧ (k' ∈ σ.helpers ∨ k' = k)) (hp : k ≠ .worker → p = s.pc)
    (hw : k = .worker → p ≠ .test ∧ p ≠ .exited ∧ (p = .second → s.closed = true)) (hc : ∀ c, k = .closure c → s.job c = .running)
    (ht : ∀ t, k = .client t → σ.dying = false) :
    R lo dn rel { s with pc := p, act := upd s.act k .called } { σ with helpers := hs } := by
  refine { h with pulled := ?_, waiting := ?_, held := ?_, uniq := ?_, nodup := hs1, helpers := ?_, inner := ?_, older := ?_,
                  test := ?_, first := ?_, second := ?_, exited := ?_, alone := ?_, freed := ?_ } <;> simp only [upd_apply]
  · have := h.pulled
    grind
  · have := h.waiting
    grind
  · intro d hd hs
    obtain ⟨k', hk'⟩ := h.held d hd hs
    exact ⟨k', by grind⟩
  · have := h.uniq
    grind
  · have := h.helpers
    grind
  · have := h.inner
    grind
  · have := h.older
    grind
  · have := h.test
    grind
  · have := h.first
    grind
  · have := h.second
    grind
  · have := h.exited
    grind
  · have := h.alone
    grind
  · have h24 := h.freed
    refine ⟨h24.1, h24.2.1, fun d hd => ⟨(h24.2.2 d hd).1, fun k' => ?_⟩⟩
    have := (h24.2.2 d hd).2 k'
    grind

theorem R.started (h : R lo dn rel s σ) {c : Nat} (hc : s.job c = .handed) :
    R lo dn rel { s with job := upd s.job c .running } { σ with st := upd σ.st c .running } := by
  refine { h with st := ?_, idle := ?_, pulled := ?_, waiting := ?_, held := ?_, inner := ?_, over := ?_ } <;> simp only [upd_apply]
  · have := h.st
    grind
  · have := h.idle
    grind
  · have := h.pulled
    grind
  · have := h.waiting
    grind
  · have := h.held
    grind
  · have := h.inner
    grind
  · have := h.over
    grind

theorem R.ended (h : R lo dn rel s σ) {c : Nat} (hc : s.job c = .running) (ha : s.act (.closure c) = .none) :
    R lo (c :: dn) rel { s with job := upd s.job c .set } { σ with st := upd σ.st c .done, ended := σ.ended + 1 } := by
  refine { h with st := ?_, idle := ?_, pulled := ?_, waiting := ?_, held := ?_, inner := ?_, over := ?_, freed := ?_ } <;> simp only [upd_apply]
  · have := h.st
    grind
  · have := h.idle
    grind
  · have := h.pulled
    grind
  · have := h.waiting
    grind
  · have := h.held
    grind
  · have := h.inner
    grind
  · have := h.over
    grind
  · have h24 := h.freed
    exact ⟨h24.1, h24.2.1, fun d hd => ⟨List.mem_cons_of_mem _ (h24.2.2 d hd).1, (h24.2.2 d hd).2⟩⟩

theorem R.submitted (h : R lo dn rel s σ) (hc : s.closed = false) :
    R lo dn rel { s with q := s.q ++ [s.next], next := s.next + 1 } { σ with acc := σ.acc + 1, st := upd σ.st s.next .waiting } := by
  have hl := h.lo_le
  refine { h with acc := by simp [h.acc], lo_le := by simp only; omega, q := ?_, st := ?_, exited := ?_ } <;> simp only [upd_apply]
  · rw [h.q, show s.next + 1 - lo = (s.next - lo) + 1 from by omega, List.range'_concat]
    have : lo + 1 * (s.next - lo) = s.next := by omega
    rw [this]
  · have := h.st
    have := h.idle s.next hl
    grind
  · have := h.exited
    grind

/-- Once the own thread has left, and no client helps, everything has ended. -/
theorem R.all_done (h : R lo dn rel s σ) (hp : s.pc = .exited) (hd : σ.dying = true) : ∀ c, c < s.next → s.job c = .set := by
  obtain ⟨_, hq, hw⟩ := h.exited hp
  have hlo : lo = s.next := by
    have h1 := h.q
    have h2 := h.lo_le
    rw [hq] at h1
    have := congrArg List.length h1
    simp at this
    omega
  intro c
  induction c using Nat.strongRecOn with
  | ind c ih =>
    intro hc
    by_cases e : s.job c = .set
    · exact e
    · obtain ⟨k, hk⟩ := h.held c (by omega) e
      cases k with
      | worker => rw [hw] at hk; exact hk.elim
      | client t => rw [(h.alone hd).2 t] at hk; exact hk.elim
      | closure d =>
        have hlt := h.older d c hk
        have := ih d hlt (by omega)
        have hr := h.inner d (fun e => by rw [e] at hk; exact hk)
        rw [hr] at this
        cases this

theorem left_zero {σ : Spec} (h : ∀ c, c < σ.acc → σ.st c = .done) : σ.left = 0 := by
  unfold Spec.left
  rw [List.length_eq_zero_iff, List.filter_eq_nil_iff]
  intro c hc
  simp [h c (List.mem_range.mp hc)]

theorem R.left_le (h : R lo dn rel s σ) {k : Caller} (hk : s.act k = .called) (hq : s.q = []) (hm : k ∈ σ.helpers) : σ.left ≤ σ.helpers.length := by
  refine h.count _ ((List.nodup_range).filter _) (k := k) (.inr hm) ?_
  intro d hd
  simp only [List.mem_filter, List.mem_range, decide_eq_true_eq, ne_eq] at hd
  have hlo : lo = s.next := by
    have h1 := h.q
    have h2 := h.lo_le
    rw [hq] at h1
    have := congrArg List.length h1
    simp at this
    omega
  have := h.acc
  have := h.st d
  refine ⟨by omega, by grind, by simp [hk, Act.holds]⟩

/-- A caller other than the own thread goes on with `try_executing_one`. -/
theorem sim_try (h : R lo dn rel s σ) {k : Caller} (hk : k ≠ .worker) {s' : State} {es : List Event} (hs : tryStep s k = some (s', es)) :
    Follows next (Rel s') σ es := by
  unfold tryStep at hs
  split at hs
  · cases hs
  · rename_i ha
    have hm : k ∈ σ.helpers := (h.helpers k).mpr ⟨hk, by simp [ha]⟩
    split at hs
    · rename_i hq
      cases hs
      exact .inr ⟨_, _, _, h.pull hq ha⟩
    · rename_i hq
      have haf : after { s with act := upd s.act k .none } k false = { s with pc := s.pc, act := upd s.act k .none } := by
        cases k <;> first | rfl | exact absurd rfl hk
      simp only [haf, seen, hk, ↓reduceIte] at hs
      cases hs
      have hle := h.left_le ha hq hm
      have hR := h.release (.inl ha) (hs := σ.helpers.erase k) (n := σ.helped) (p := s.pc) (rel' := rel) (h.nodup.erase _)
        (fun k' => by rw [h.nodup.mem_erase_iff]; exact and_comm) (fun _ => rfl) (fun e => absurd e hk)
        ⟨h.freed.1, h.freed.2.1, fun c hc => ⟨(h.freed.2.2 c hc).1, fun k' hk' => absurd hk' ((h.freed.2.2 c hc).2 k')⟩⟩
      (simp only [Follows, next, h.crash, Bool.false_eq_true, ↓reduceIte]; simp only [live, Bool.false_eq_true, ↓reduceIte, hm, hle, and_self])
      exact .inr ⟨_, _, _, hR⟩
  · rename_i c ha
    split at hs
    · rename_i hx
      cases hs
      simp only [Follows, next, h.crash, live, h.exClosed, hx, Bool.false_eq_true, ↓reduceIte]
      exact .inl rfl
    · cases hs
      exact .inr ⟨_, _, _, h.hand ha⟩
  · rename_i c ha
    split at hs
    · rename_i hset
      have hm : k ∈ σ.helpers := (h.helpers k).mpr ⟨hk, by simp [ha]⟩
      have haf : after { s with act := upd s.act k .none } k true = { s with pc := s.pc, act := upd s.act k .none } := by
        cases k <;> first | rfl | exact absurd rfl hk
      simp only [haf, seen, hk, ↓reduceIte] at hs
      cases hs
      have hf := h.freed
      have hh : (s.act k).holds c := by rw [ha]; rfl
      have hcd : c ∈ dn := (h.over.2.2 c).mpr hset
      have hnew : c ∉ rel := fun hc => (hf.2.2 c hc).2 k hh
      have hlt : σ.helped < σ.ended := by
        have := length_le_of_nodup_subset (l := c :: rel) (m := dn) (List.nodup_cons.mpr ⟨hnew, hf.1⟩)
          (fun a ha => by rcases List.mem_cons.mp ha with e | e; exact e ▸ hcd; exact (hf.2.2 a e).1)
        have h1 := h.over.2.1
        have h2 := hf.2.1
        simp only [List.length_cons] at this
        omega
      have hR := h.release (.inr ⟨c, ha, hset⟩) (hs := σ.helpers.erase k) (n := σ.helped + 1) (p := s.pc) (rel' := c :: rel) (h.nodup.erase _)
        (fun k' => by rw [h.nodup.mem_erase_iff]; exact and_comm) (fun _ => rfl) (fun e => absurd e hk)
        ⟨List.nodup_cons.mpr ⟨hnew, hf.1⟩, by simpa using hf.2.1, fun d hd => by
          rcases List.mem_cons.mp hd with e | e
          · subst e; exact ⟨hcd, fun k' hk' => h.uniq k' k d hk' hh⟩
          · exact ⟨(hf.2.2 d e).1, fun k' hk' => absurd hk' ((hf.2.2 d e).2 k')⟩⟩
      (simp only [Follows, next, h.crash, Bool.false_eq_true, ↓reduceIte]; simp only [live, Bool.false_eq_true, ↓reduceIte, hm, hlt, and_self])
      exact .inr ⟨_, _, _, hR⟩
    · cases hs

theorem helpers_worker (h : R lo dn rel s σ) : Caller.worker ∉ σ.helpers := fun hm => ((h.helpers _).mp hm).1 rfl

theorem sim_worker (h : R lo dn rel s σ) {s' : State} {es : List Event} (hs : worker s = some (s', es)) : Follows next (Rel s') σ es := by
  have hnw := helpers_worker h
  have hmem : ∀ k', k' ∈ σ.helpers ↔ k' ≠ .worker ∧ (k' ∈ σ.helpers ∨ k' = .worker) := by grind
  have hmem' : ∀ k', k' ∈ σ.helpers ↔ k' ∈ σ.helpers ∧ k' ≠ .worker := by grind
  have hfree : rel.Nodup ∧ σ.helped ≤ rel.length ∧ ∀ c ∈ rel, c ∈ dn ∧ ∀ k', (s.act k').holds c → k' = .worker :=
    ⟨h.freed.1, h.freed.2.1, fun c hc => ⟨(h.freed.2.2 c hc).1, fun k' hk' => absurd hk' ((h.freed.2.2 c hc).2 k')⟩⟩
  have ht : ∀ {s' : State} {es : List Event}, tryStep s .worker = some (s', es) → (s.pc = .first ∨ s.pc = .second) → Follows next (Rel s') σ es := by
    intro s' es hs hpc
    unfold tryStep at hs
    split at hs
    · cases hs
    · rename_i ha
      split at hs
      · rename_i hq
        cases hs
        exact .inr ⟨_, _, _, h.pull hq ha⟩
      · rename_i hq
        simp only [seen, ↓reduceIte] at hs
        cases hs
        refine .inr ⟨_, _, _, h.release (.inl ha) (hs := σ.helpers) (n := σ.helped) (rel' := rel) h.nodup hmem' (fun e => absurd rfl e) (fun _ => ?_) hfree⟩
        have := h.second
        rcases hpc with e | e <;> simp only [e] <;> grind
    · rename_i c ha
      split at hs
      · rename_i hx
        cases hs
        simp only [Follows, next, h.crash, live, h.exClosed, hx, Bool.false_eq_true, ↓reduceIte]
        exact .inl rfl
      · cases hs
        exact .inr ⟨_, _, _, h.hand ha⟩
    · rename_i c ha
      split at hs
      · rename_i hset
        simp only [seen, ↓reduceIte] at hs
        cases hs
        refine .inr ⟨_, _, _, h.release (.inr ⟨c, ha, hset⟩) (hs := σ.helpers) (n := σ.helped) (rel' := rel) h.nodup hmem' (fun e => absurd rfl e) (fun _ => ?_) hfree⟩
        have := h.second
        rcases hpc with e | e <;> simp only [e] <;> grind
      · cases hs
  unfold worker at hs
  split at hs
  · rename_i hpc
    have hn := h.test hpc
    split at hs <;> cases hs
    · refine .inr ⟨_, _, _, h.call (k := .worker) hn (hs := σ.helpers) h.nodup hmem (fun e => absurd rfl e) (fun _ => ?_) (by simp) (by simp)⟩
      simp [*]
    · refine .inr ⟨_, _, _, h.call (k := .worker) hn (hs := σ.helpers) h.nodup hmem (fun e => absurd rfl e) (fun _ => ?_) (by simp) (by simp)⟩
      simp [*]
  · exact ht hs (.inl ‹_›)
  · rename_i hpc
    split at hs
    · cases hs
      refine .inr ⟨_, _, _, h.call (k := .worker) (p := s.pc) (by assumption) (hs := σ.helpers) h.nodup hmem (fun e => absurd rfl e) (fun _ => ?_) (by simp) (by simp)⟩
      have := h.second hpc
      simp [*]
    · exact ht hs (.inr hpc)
  · cases hs

theorem sim {cap : Nat} {s s' : State} {l : Label} {es : List Event} {σ : Spec} (hR : Rel s σ) (hs : step cap s l = some (s', es)) : Follows next (Rel s') σ es := by
  rcases hR with hR | ⟨lo, dn, rel, h⟩
  · cases l with
    | destroy t => simp only [step] at hs; split at hs <;> simp_all [running]
    | destroyEnd => simp only [step] at hs; split at hs <;> simp_all [running]
    | _ => simp [step, hR] at hs
  have hrun := h.run
  have hcr := h.crash
  cases l with
  | submit k =>
    simp only [step] at hs
    split at hs
    · simp only [Option.some.injEq] at hs
      unfold submit at hs
      split at hs <;> cases hs <;> rename_i hcl <;> (simp only [Follows, next, hcr, Bool.false_eq_true, ↓reduceIte]; simp only [live, Bool.false_eq_true, ↓reduceIte, reduceCtorEq])
      · by_cases hl : σ.late k
        · simp [hl]
        · simp only [hl, h.closed, hcl, Bool.false_eq_true, ↓reduceIte]
          exact .inr ⟨_, _, _, h⟩
      · by_cases hl : σ.late k
        · simp [hl]
        · have hcond : s.next = σ.acc ∧ σ.closed = false := ⟨h.acc.symm, by rw [h.closed]; simpa using hcl⟩
          rw [if_neg hl, if_pos hcond]
          exact .inr ⟨_, _, _, h.submitted (by simpa using hcl)⟩
    · cases hs
  | close k =>
    simp only [step] at hs
    split at hs <;> cases hs
    (simp only [Follows, next, hcr, Bool.false_eq_true, ↓reduceIte]; simp only [live, Bool.false_eq_true, ↓reduceIte, reduceCtorEq])
    by_cases hl : σ.late k
    · simp [hl]
    · simp only [hl, Bool.false_eq_true, ↓reduceIte]
      exact .inr ⟨_, _, _, { h with closed := rfl, second := fun _ => rfl, exited := fun e => ⟨rfl, (h.exited e).2⟩, alone := fun e => ⟨rfl, (h.alone e).2⟩ }⟩
  | isClosed k =>
    simp only [step] at hs
    split at hs <;> cases hs
    (simp only [Follows, next, hcr, Bool.false_eq_true, ↓reduceIte]; simp only [live, Bool.false_eq_true, ↓reduceIte, reduceCtorEq])
    by_cases hl : σ.late k
    · simp [hl]
    · simp only [hl, h.closed, Bool.false_eq_true, ↓reduceIte]
      exact .inr ⟨_, _, _, h⟩
  | tryExec k =>
    simp only [step] at hs
    split at hs
    · rename_i hc
      cases hs
      (simp only [Follows, next, hcr, Bool.false_eq_true, ↓reduceIte]; simp only [live, Bool.false_eq_true, ↓reduceIte, reduceCtorEq])
      by_cases hl : σ.late k
      · simp [hl]
      · simp only [hl, Bool.false_eq_true, ↓reduceIte]
        have hk : k ≠ .worker ∧ s.act k = .none ∧ (∀ c, k = .closure c → s.job c = .running) := by
          have := hc.2
          cases k <;> simp [mayCall] at this ⊢
          · exact this.1
          · exact this.symm
        have hnm : k ∉ σ.helpers := fun hm => ((h.helpers k).mp hm).2 hk.2.1
        refine .inr ⟨_, _, _, h.call (p := s.pc) hk.2.1 (List.nodup_cons.mpr ⟨hnm, h.nodup⟩) (fun k' => ?_) (fun _ => rfl) (fun e => absurd e hk.1) hk.2.2 (fun t e => ?_)⟩
        · have := h.helpers k'
          have := hk.1
          grind
        · subst e
          simpa [Spec.late] using hl
    · cases hs
  | go k =>
    simp only [step, hrun, ↓reduceIte] at hs
    split at hs
    · exact sim_worker h hs
    · exact sim_try h ‹_› hs
  | exStart c =>
    simp only [step, hrun, ↓reduceIte, exStart] at hs
    split at hs
    · rename_i hc
      cases hs
      obtain ⟨h1, h2⟩ := h.before_le hc.1
      have hst : σ.st c = .waiting := by rw [h.st, hc.1]; rfl
      (simp only [Follows, next, hcr, Bool.false_eq_true, ↓reduceIte]; simp only [live, Bool.false_eq_true, ↓reduceIte, reduceCtorEq, h1, h2, hst, and_self])
      exact .inr ⟨_, _, _, h.started hc.1⟩
    · cases hs
  | exEnd c b =>
    simp only [step, hrun, ↓reduceIte, exEnd] at hs
    split at hs
    · rename_i hc
      cases hs
      have hst : σ.st c = .running := by rw [h.st, hc.1]; rfl
      have hlt : c < σ.acc := by
        have := h.idle c
        have := h.lo_le
        have := h.acc
        have := hc.1
        grind
      (simp only [Follows, next, hcr, Bool.false_eq_true, ↓reduceIte]; simp only [live, Bool.false_eq_true, ↓reduceIte, reduceCtorEq, hlt, hst, and_self])
      exact .inr ⟨_, _, _, h.ended hc.1 hc.2⟩
    · cases hs
  | exClose =>
    simp only [step, hrun, ↓reduceIte] at hs
    cases hs
    (simp only [Follows, next, hcr, Bool.false_eq_true, ↓reduceIte]; simp only [live, Bool.false_eq_true, ↓reduceIte, reduceCtorEq])
    exact .inr ⟨_, _, _, { h with exClosed := rfl }⟩
  | interrupt k =>
    simp only [step, hrun, ↓reduceIte] at hs
    have hk : k ≠ .worker := by rintro rfl; simp [interrupt] at hs
    have hm : k ∈ σ.helpers := (h.helpers k).mpr ⟨hk, by intro e; cases k <;> simp [interrupt, e] at hs⟩
    have he : es = [.interrupted k, .terminated] ∧ running s' = false := by
      unfold interrupt at hs
      split at hs
      · cases hs
      · split at hs <;> cases hs
        exact ⟨rfl, rfl⟩
      · cases hs
    obtain ⟨rfl, hr⟩ := he
    simp only [Follows, next, live, hcr, Bool.false_eq_true, ↓reduceIte, reduceCtorEq, hm]
    exact .inl hr
  | destroy t =>
    simp only [step] at hs
    split at hs
    · rename_i hc
      cases hs
      (simp only [Follows, next, hcr, Bool.false_eq_true, ↓reduceIte]; simp only [live, Bool.false_eq_true, ↓reduceIte, reduceCtorEq])
      by_cases hl : σ.late (.client t) = true ∨ σ.clientHelps = true
      · simp [hl]
      · simp only [hl, ↓reduceIte]
        simp only [not_or, Bool.not_eq_true] at hl
        refine .inr ⟨_, _, _, { h with closed := rfl, second := fun _ => rfl, exited := fun e => ⟨rfl, (h.exited e).2⟩, dying := by simp, alone := fun _ => ⟨rfl, fun u => ?_⟩, run := rfl }⟩
        have h1 := hl.2
        unfold Spec.clientHelps at h1
        rw [List.any_eq_false] at h1
        cases hu : s.act (.client u) with
        | none => rfl
        | _ => exact absurd rfl (h1 (.client u) ((h.helpers _).mpr ⟨by simp, by simp [hu]⟩))
    · cases hs
  | destroyEnd =>
    simp only [step] at hs
    split at hs
    · rename_i t ht
      split at hs
      · rename_i hp
        cases hs
        have hd : σ.dying = true := h.dying.mpr ⟨t, ht⟩
        have hall := h.all_done hp hd
        have hl : σ.left = 0 := left_zero fun c hc => by rw [h.st, hall c (h.acc ▸ hc)]; rfl
        (simp only [Follows, next, hcr, Bool.false_eq_true, ↓reduceIte]; simp only [live, Bool.false_eq_true, ↓reduceIte, reduceCtorEq, hd, hl, and_self])
        exact .inl rfl
      · cases hs
    · cases hs

end Verif.SerialExecutor
