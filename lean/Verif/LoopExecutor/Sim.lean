import Verif.LoopExecutor.Spec
import Verif.Devector.Lemmas
/-! # Every history is allowed -/

set_option linter.unusedSimpArgs false

namespace Verif.LoopExecutor

def Kind.call : Kind → Call
  | .one => .one
  | .batch => .run
  | _ => .loop

/-- How a frame of the model looks from outside. -/
structure Sees (us : Bool) (s : State) (f : Frame) (o : Open) : Prop where
  call : o.call = f.kind.call
  todo : o.todo = (match f.cur with | some (c, false) => c :: f.rest | _ => f.rest)
  cur : o.cur = (match f.cur with | some (c, true) => some c | _ => none)
  rest : f.kind ≠ .batch → f.rest = []
  one : f.kind = .one → f.cur ≠ none
  second : f.kind = .second → s.closed = true
  noRun : us = true → f.kind ≠ .batch
  try_ : f.kind = .firstTry → us = true

def SeesAll (us : Bool) (s : State) : List Frame → List Open → Prop
  | [], [] => True
  | f :: fs, o :: os => Sees us s f o ∧ SeesAll us s fs os
  | _, _ => False

theorem SeesAll.mono {us : Bool} {s s' : State} {fs : List Frame} {os : List Open} (h : SeesAll us s fs os) (hc : s.closed = true → s'.closed = true) : SeesAll us s' fs os := by
  induction fs generalizing os with
  | nil => cases os <;> exact h
  | cons f fs ih =>
    cases os with
    | nil => exact h
    | cons o os => exact ⟨{ h.1 with second := fun e => hc (h.1.second e) }, ih h.2⟩

structure R (us : Bool) (s : State) (σ : Spec) : Prop where
  acc : σ.acc = s.next
  closed : σ.closed = s.closed
  due : σ.due = none
  le : σ.taken ≤ s.next
  q : σ.broken = false → s.q.Ok ∧ s.q.items = List.range' σ.taken (s.next - σ.taken) ∧ (σ.begun = true ↔ 0 < s.q.fi)
  calls : ∀ t, SeesAll us s (s.stk t) (σ.calls t)

def Rel (us : Bool) (s : State) (σ : Spec) : Prop := s.phase ≠ .up ∨ R us s σ

theorem rel_init (us : Bool) : Rel us init Spec.init := .inr (by constructor <;> simp [init, Spec.init, SeesAll, Devector.ok_new, Devector.items_new]; rfl)

variable {us : Bool} {s s' : State} {σ : Spec} {es : List Event}

theorem pull_got {d q : Devector Nat} {c : Nat} (hd : d.Ok) (h : pull d = .got c q) : ∃ l, d.items = c :: l ∧ q = d.popFront := by
  simp only [pull, hd.empty] at h
  split at h
  · cases h
  · rw [Devector.front_eq] at h
    cases hi : d.items with
    | nil => simp [hi] at *
    | cons v l => simp [hi] at h; exact ⟨l, by rw [h.1], h.2.symm⟩

theorem pull_nothing {d : Devector Nat} (hd : d.Ok) : pull d = .nothing ↔ d.items = [] := by
  simp only [pull, hd.empty, Devector.front_eq]
  cases hi : d.items <;> simp

theorem pull_in_range {d : Devector Nat} (hd : d.Ok) : pull d ≠ .outOfRange := by
  simp only [pull, hd.empty, Devector.front_eq]
  cases hi : d.items <;> simp

theorem R.pull (h : R us s σ) (hb : σ.broken = false) {c : Nat} {q : Devector Nat} (hq : pull s.q = .got c q) :
    c = σ.taken ∧ c < σ.acc ∧ c + 1 ≤ s.next ∧ q.Ok ∧ q.items = List.range' (c + 1) (s.next - (c + 1)) ∧ (decide (c + 1 < σ.acc) = true ↔ 0 < q.fi) := by
  obtain ⟨hok, h1, -⟩ := h.q hb
  have h2 := h.le
  have h3 := h.acc
  obtain ⟨l, hl, rfl⟩ := pull_got hok hq
  obtain ⟨p1, p2⟩ := hok.popFront hl
  have p3 := Devector.fi_popFront hok hl
  rw [hl] at h1
  cases hn : s.next - σ.taken with
  | zero => rw [hn] at h1; simp at h1
  | succ m =>
    rw [hn, List.range'_succ] at h1
    simp only [List.cons.injEq] at h1
    obtain ⟨rfl, rfl⟩ := h1
    refine ⟨rfl, by omega, by omega, p1, ?_, ?_⟩
    · rw [p2]
      congr 1
      omega
    · rw [p3]
      simp only [decide_eq_true_eq, ne_eq, List.range'_eq_nil_iff]
      omega

theorem R.empty (h : R us s σ) (hb : σ.broken = false) (hq : LoopExecutor.pull s.q = .nothing) : σ.taken = σ.acc := by
  obtain ⟨hok, h1, -⟩ := h.q hb
  have h1 := congrArg List.length h1
  have := h.le
  have := h.acc
  rw [(pull_nothing hok).mp hq] at h1
  simp at h1
  omega

theorem sees_cons {t : Nat} {f : Frame} {fs : List Frame} (h : R us s σ) (hf : s.stk t = f :: fs) :
    ∃ o os, σ.calls t = o :: os ∧ Sees us s f o ∧ SeesAll us s fs os := by
  have := h.calls t
  rw [hf] at this
  cases hc : σ.calls t with
  | nil => rw [hc] at this; exact this.elim
  | cons o os => rw [hc] at this; exact ⟨o, os, rfl, this⟩

theorem calls_upd (h : R us s σ) {t : Nat} {fs : List Frame} {os : List Open} (hx : SeesAll us s fs os) : ∀ u, SeesAll us s (upd s.stk t fs u) (upd σ.calls t os u) := by
  intro u
  simp only [upd_apply]
  split
  · exact hx
  · exact h.calls u

theorem push (h : R us s σ) {t : Nat} {f : Frame} {o : Open} {fs : List Frame} {os : List Open} (hf : Sees us s f o) (hx : SeesAll us s fs os) {s' : State} (hc : s'.closed = s.closed) (u : Nat) :
    SeesAll us s' (upd s.stk t (f :: fs) u) (upd σ.calls t (o :: os) u) :=
  SeesAll.mono (calls_upd h (fs := f :: fs) (os := o :: os) ⟨hf, hx⟩ u) (fun e => hc.trans e)

theorem R.may (h : R us s σ) {t : Nat} (ho : σ.outside t = true) : mayCall s t = true := by
  have hc := h.calls t
  unfold Spec.outside at ho
  unfold LoopExecutor.mayCall
  cases hf : s.stk t with
  | nil => rfl
  | cons f fs =>
    rw [hf] at hc
    cases hoc : σ.calls t with
    | nil => rw [hoc] at hc; exact hc.elim
    | cons o os =>
      rw [hoc] at hc ho
      simp only [hc.1.cur] at ho
      split at ho <;> simp_all

theorem R.outside (h : R us s σ) {t : Nat} (hm : mayCall s t = true) : σ.outside t = true := by
  have hc := h.calls t
  unfold mayCall at hm
  unfold Spec.outside
  cases hf : s.stk t with
  | nil => rw [hf] at hc; cases ho : σ.calls t with
    | nil => rfl
    | cons o os => rw [ho] at hc; exact hc.elim
  | cons f fs =>
    obtain ⟨o, os, ho, hsees, _⟩ := sees_cons h hf
    rw [hf] at hm
    rw [ho]
    simp only [hsees.cur]
    simp only at hm
    split at hm
    · rename_i c b hcur
      subst hm
      simp [hcur]
    · cases hm

theorem sim_go (h : R us s σ) {t : Nat} (hs : go us s t = some (s', es)) : Follows (next us false) (Rel us s') σ es := by
  unfold go at hs
  split at hs
  · rename_i k rest fs hf
    obtain ⟨⟨ca, td, cu, hurt⟩, os, hc, ho, hall⟩ := sees_cons h hf
    obtain ⟨h1, h2, h3, h4, h5, h6, h7, h8⟩ := ho
    simp only at h1 h2 h3
    subst td cu
    have crash : Follows (next us false) (Rel us (crash s).1) σ [.undefinedBehaviour] ∨ pull s.q ≠ .outOfRange := by
      cases hb : σ.broken with
      | true => left; simp [Follows, next, h.due, hb, touches]
      | false => right; exact pull_in_range (h.q hb).1
    have took : ∀ {c : Nat} {q : Devector Nat} {k' : Kind}, k'.call = .loop → (k' = .second → s.closed = true) → k' ≠ .firstTry → rest = [] → ca = .loop → pull s.q = .got c q →
        Follows (next us false) (Rel us { s with q := q, stk := upd s.stk t (⟨k', some (c, false), rest⟩ :: fs) }) σ [.loopTook t c] := by
      intro c q k' hk1 hk2 hk3 hr hca hq
      subst hr hca
      cases hb : σ.broken with
      | true => simp [Follows, next, h.due, hb, touches]
      | false =>
      obtain ⟨rfl, p2, p3, p4⟩ := h.pull hb hq
      simp only [Follows, next, h.due, hb, Bool.false_eq_true, false_and, live, hc, p2, and_self, ↓reduceIte]
      refine .inr { h with due := rfl, le := p3, q := fun _ => p4, calls := fun u => ?_ }
      refine SeesAll.mono (calls_upd h (fs := ⟨k', some (σ.taken, false), []⟩ :: fs) (os := ⟨.loop, [σ.taken], none, false⟩ :: os) ⟨⟨hk1.symm, rfl, rfl, fun _ => rfl, nofun, hk2, ?_, fun e => absurd e hk3⟩, hall⟩ u) id
      rintro _ rfl
      cases hk1
    have move : ∀ {k' : Kind}, k'.call = .loop → (k' = .second → s.closed = true) → (k' = .firstTry → us = true) → rest = [] → ca = .loop →
        Rel us { s with stk := upd s.stk t (⟨k', none, rest⟩ :: fs) } σ := by
      intro k' hk1 hk2 hk3 hr hca
      subst hr hca
      refine .inr { h with calls := fun u => ?_ }
      have := SeesAll.mono (s' := { s with stk := upd s.stk t (⟨k', none, []⟩ :: fs) }) (calls_upd h (t := t) (fs := ⟨k', none, []⟩ :: fs) (os := ⟨.loop, [], none, hurt⟩ :: os)
        ⟨⟨hk1.symm, rfl, rfl, fun _ => rfl, (by rintro rfl; cases hk1), hk2, (by rintro _ rfl; cases hk1), hk3⟩, hall⟩ u) id
      have e : upd σ.calls t (⟨.loop, [], none, hurt⟩ :: os) = σ.calls := by funext v; simp only [upd_apply]; split <;> simp [*]
      rw [e] at this
      exact this
    split at hs
    · cases hs
    · have hr := h4 (by simp)
      split at hs
      · split at hs <;> cases hs
        · exact move rfl (fun _ => by assumption) nofun hr h1
        · exact move rfl nofun (fun _ => by assumption) hr h1
      · split at hs
        · rename_i hq
          cases hs
          exact took rfl nofun nofun hr h1 hq
        · rename_i hq
          cases hs
          exact crash.resolve_right (fun e => e hq)
        · split at hs <;> cases hs
          exact move rfl (fun _ => by assumption) nofun hr h1
    · have hr := h4 (by simp)
      split at hs
      · rename_i hq
        cases hs
        exact crash.resolve_right (fun e => e hq)
      · rename_i hq
        cases hs
        exact took rfl nofun nofun hr h1 hq
      · cases hs
        exact move rfl nofun nofun hr h1
    · have hr := h4 (by simp)
      have hcl := h6 rfl
      split at hs
      · rename_i hq
        cases hs
        exact crash.resolve_right (fun e => e hq)
      · rename_i hq
        cases hs
        exact took rfl (fun _ => hcl) nofun hr h1 hq
      · rename_i hq
        cases hs
        have h1 : ca = .loop := h1
        subst hr h1
        cases hb : σ.broken with
        | true => simp [Follows, next, h.due, hb, touches]
        | false =>
        have he := h.empty hb hq
        have hσc : σ.closed = true := h.closed.trans hcl
        simp only [Follows, next, h.due, hb, Bool.false_eq_true, false_and, ↓reduceIte, live, hc]
        rw [if_pos ⟨hσc, .inl he⟩]
        exact .inr { h with due := rfl, q := fun _ => h.q hb, calls := fun u => SeesAll.mono (calls_upd h hall u) id }
    · have h1 : ca = .run := h1
      subst h1
      split at hs
      · rename_i c rest
        cases hs
        refine .inr { h with calls := fun u => ?_ }
        have := SeesAll.mono (s' := { s with stk := upd s.stk t (⟨.batch, some (c, false), rest⟩ :: fs) }) (calls_upd h (t := t) (fs := ⟨.batch, some (c, false), rest⟩ :: fs)
          (os := ⟨.run, c :: rest, none, hurt⟩ :: os) ⟨⟨rfl, rfl, rfl, nofun, nofun, nofun, h7, nofun⟩, hall⟩ u) id
        have e : upd σ.calls t (⟨.run, c :: rest, none, hurt⟩ :: os) = σ.calls := by funext v; simp only [upd_apply]; split <;> simp [*]
        rw [e] at this
        exact this
      · cases hs
        simp only [Follows, next, h.due, touches, Bool.false_eq_true, false_and, and_false, ↓reduceIte, live, hc]
        exact .inr { h with due := rfl, calls := fun u => SeesAll.mono (calls_upd h hall u) id }
  · cases hs

theorem sim {s s' : State} {l : Label} {es : List Event} {σ : Spec} (hR : Rel us s σ) (hs : step us s l = some (s', es)) :
    Follows (next us false) (Rel us s') σ es := by
  rcases hR with hR | h
  · simp [step, hR] at hs
  have hu : s.phase = .up := by
    by_cases e : s.phase = .up
    · exact e
    · simp [step, e] at hs
  have hd := h.due
  simp only [step, hu, ↓reduceIte] at hs
  cases l with
  | submit t =>
    simp only at hs
    split at hs
    · simp only [Option.some.injEq] at hs
      unfold submit at hs
      split at hs <;> cases hs <;> rename_i hcl <;> simp only [Follows, next, hd, touches, Bool.false_eq_true, false_and, and_false, ↓reduceIte, live]
      · rw [if_pos (by rw [h.closed]; exact hcl)]
        exact .inr h
      · rw [if_pos ⟨h.acc.symm, by rw [h.closed]; simpa using hcl⟩]
        have hl := h.le
        refine .inr { h with acc := by simp [h.acc], due := rfl, le := by simp only; omega, q := fun hb => ?_, calls := fun u => (h.calls u).mono id }
        obtain ⟨q1, q2, q3⟩ := h.q hb
        refine ⟨q1.pushBack _, ?_, q3⟩
        simp only
        rw [q1.items_pushBack, q2, show s.next + 1 - σ.taken = (s.next - σ.taken) + 1 from by omega, List.range'_concat]
        have : σ.taken + 1 * (s.next - σ.taken) = s.next := by omega
        rw [this]
    · cases hs
  | close t =>
    simp only at hs
    split at hs <;> cases hs
    simp only [Follows, next, hd, touches, Bool.false_eq_true, false_and, and_false, ↓reduceIte, live]
    exact .inr { h with closed := rfl, due := rfl, calls := fun u => (h.calls u).mono fun _ => rfl }
  | isClosed t =>
    simp only at hs
    split at hs <;> cases hs
    simp only [Follows, next, hd, touches, Bool.false_eq_true, false_and, and_false, ↓reduceIte, live]
    rw [if_pos h.closed.symm]
    exact .inr h
  | tryExec t =>
    simp only at hs
    split at hs
    · simp only [Option.some.injEq] at hs
      cases hb : σ.broken with
      | true =>
        unfold tryExec at hs
        split at hs <;> cases hs <;> simp [Follows, next, hd, hb, touches]
      | false =>
      unfold tryExec at hs
      split at hs <;> rename_i hq
      rotate_left 2
      · exact absurd hq (pull_in_range (h.q hb).1)
      all_goals cases hs; simp only [Follows, next, hd, hb, Bool.false_eq_true, false_and, and_false, ↓reduceIte, live]
      · obtain ⟨rfl, p2, p3, p4⟩ := h.pull hb hq
        rw [if_pos ⟨rfl, p2, h.outside (by assumption)⟩]
        exact .inr { h with due := rfl, le := p3, q := fun _ => p4, calls := fun u => (by refine push h ?_ ?_ ?_ u; (exact ⟨rfl, rfl, rfl, fun _ => rfl, by simp, nofun, nofun, nofun⟩); (exact h.calls t); rfl) }
      · rw [if_pos ⟨trivial, h.empty hb hq⟩]
        exact .inr h
    · cases hs
  | loop t =>
    simp only at hs
    split at hs <;> cases hs
    simp only [Follows, next, hd, touches, Bool.false_eq_true, false_and, and_false, ↓reduceIte, live]
    rw [if_pos (h.outside (by assumption))]
    exact .inr { h with due := rfl, calls := fun u => (by refine push h ?_ ?_ ?_ u; (exact ⟨rfl, rfl, rfl, fun _ => rfl, nofun, nofun, nofun, nofun⟩); (exact h.calls t); rfl) }
  | run t =>
    simp only at hs
    split at hs
    · simp only [Option.some.injEq] at hs
      unfold runQueued at hs
      split at hs
      · rename_i hus
        split at hs <;> cases hs <;> simp [Follows, next, hd, live, hus] <;> split <;> rename_i hx <;> (try trivial) <;> split at hx <;> simp_all
      · rename_i hus
        cases hb : σ.broken with
        | true => split at hs <;> cases hs <;> simp [Follows, next, hd, hb, touches]
        | false =>
        obtain ⟨q1, q2, q3⟩ := h.q hb
        have hdr : s.q.moved.drain s.q.vec.length = some s.q.items := Devector.drain_items (d := s.q.moved) q1 _ (by simp [Devector.moved, Devector.items])
        rw [hdr] at hs
        cases hs
        simp only [Follows, next, hd, hb, Bool.false_eq_true, false_and, ↓reduceIte, live]
        rw [if_neg (by simp [hus]), if_pos (h.outside (by assumption))]
        refine .inr { h with due := rfl, le := by simp [h.acc], q := fun hb' => ?_, calls := fun u => (by refine push h ?_ ?_ ?_ u; (exact ⟨rfl, by simp only [Spec.queue, q2, h.acc], rfl, nofun, nofun, nofun, fun e => absurd e hus, nofun⟩); (exact h.calls t); rfl) }
        have hfi : s.q.fi = 0 := by
          have := mt q3.mpr (by rw [show σ.begun = false from hb']; simp)
          omega
        exact ⟨Devector.ok_movedFrom.mpr hfi, by simp [Devector.items_movedFrom, h.acc], by simp [Devector.movedFrom, hfi]⟩
    · cases hs
  | go t => exact sim_go h hs
  | start t =>
    simp only [start] at hs
    split at hs
    · rename_i k c rest fs hf
      obtain ⟨⟨ca, td, cu, hurt⟩, os, hc, ho, hall⟩ := sees_cons h hf
      obtain ⟨h1, h2, h3, h4, h5, h6, h7, h8⟩ := ho
      simp only at h1 h2 h3
      subst td cu
      cases hs
      simp only [Follows, next, hd, touches, Bool.false_eq_true, false_and, and_false, ↓reduceIte, live, hc, ↓reduceIte]
      exact .inr { h with due := rfl, calls := fun u => (by refine push h ?_ ?_ ?_ u; (exact ⟨h1, rfl, rfl, h4, nofun, h6, h7, h8⟩); (exact hall); rfl) }
    · cases hs
  | finish t =>
    simp only [finish] at hs
    split at hs
    · rename_i k c rest fs hf
      obtain ⟨⟨ca, td, cu, hurt⟩, os, hc, ho, hall⟩ := sees_cons h hf
      obtain ⟨h1, h2, h3, h4, h5, h6, h7, h8⟩ := ho
      simp only at h1 h2 h3
      subst td cu
      split at hs
      · have h1 : ca = .one := h1
        subst h1
        cases hs
        simp only [Follows, next, hd, touches, Bool.false_eq_true, false_and, and_false, ↓reduceIte, live, hc, ↓reduceIte]
        exact .inr { h with due := rfl, calls := fun u => SeesAll.mono (calls_upd h hall u) id }
      · rename_i hk
        cases hs
        have hca : ca ≠ .one := by
          rw [h1]
          cases k <;> simp_all [Kind.call]
        simp only [Follows, next, hd, touches, Bool.false_eq_true, false_and, and_false, ↓reduceIte, live, hc, hca, ↓reduceIte]
        exact .inr { h with due := rfl, calls := fun u => (by refine push h ?_ ?_ ?_ u; (exact ⟨h1, rfl, rfl, h4, fun e => absurd e hk, h6, h7, h8⟩); (exact hall); rfl) }
    · cases hs
  | throw t =>
    simp only [throw] at hs
    split at hs
    · rename_i k c rest fs hf
      obtain ⟨⟨ca, td, cu, hurt⟩, os, hc, ho, hall⟩ := sees_cons h hf
      obtain ⟨h1, h2, h3, h4, h5, h6, h7, h8⟩ := ho
      simp only at h1 h2 h3
      subst td cu
      split at hs
      · have h1 : ca = .run := h1
        subst h1
        cases hs
        simp only [Follows, next, hd, touches, Bool.false_eq_true, false_and, and_false, ↓reduceIte, live, hc, ↓reduceIte]
        exact .inr { h with due := rfl, calls := fun u => SeesAll.mono (calls_upd h hall u) id }
      · have h1 : ca = .one := h1
        subst h1
        split at hs <;> cases hs <;> rename_i hus <;> (try subst hus) <;> simp only [Follows, next, hd, touches, Bool.false_eq_true, false_and, and_false, ↓reduceIte, live, hc, ↓reduceIte, and_self, reduceCtorEq, Bool.false_eq_true, false_and]
        · exact .inr { h with due := rfl, calls := fun u => SeesAll.mono (calls_upd h hall u) id }
        · rw [if_neg (by simp [hus])]
          exact .inl nofun
      · have h1 : ca = .loop := h1
        subst h1
        have hcl := h6 rfl
        split at hs <;> cases hs <;> rename_i hus <;> (try subst hus) <;> simp only [Follows, next, hd, touches, Bool.false_eq_true, false_and, and_false, ↓reduceIte, live, hc, ↓reduceIte, and_self, reduceCtorEq, Bool.false_eq_true, false_and]
        · have hcl' : σ.closed = true := h.closed.trans hcl
          cases hb : σ.broken with
          | true => simp [Follows]
          | false =>
          simp only [upd_apply, ↓reduceIte, hcl', or_true, and_self, Bool.false_eq_true, false_and]
          refine .inr { h with closed := hcl' ▸ h.closed, due := rfl, q := fun _ => h.q hb, calls := fun u => ?_ }
          have e : upd (upd σ.calls t (⟨.loop, [], none, true⟩ :: os)) t os = upd σ.calls t os := by funext v; simp only [upd_apply]; split <;> rfl
          rw [e]
          exact SeesAll.mono (calls_upd h hall u) id
        · rw [if_neg (by simp [hus])]
          exact .inl nofun
      · rename_i hk1 hk2 hk3
        have hca : ca = .loop := by
          rw [h1]
          cases k <;> simp_all [Kind.call]
        subst hca
        split at hs <;> cases hs <;> rename_i hus <;> (try subst hus) <;> simp only [Follows, next, hd, touches, Bool.false_eq_true, false_and, and_false, ↓reduceIte, live, hc, ↓reduceIte, and_self, reduceCtorEq, Bool.false_eq_true, false_and]
        · exact .inr { h with due := rfl, calls := fun u => (by refine push h ?_ ?_ ?_ u; (exact ⟨h1, (h4 hk1).symm, rfl, h4, fun e => absurd e hk2, h6, h7, h8⟩); (exact hall); rfl) }
        · rw [if_neg (by simp [hus])]
          exact .inl nofun
    · cases hs
  | destroy t =>
    simp only at hs
    split at hs <;> cases hs
    simp only [Follows, next, hd, touches, Bool.false_eq_true, false_and, and_false, ↓reduceIte, live]
    exact .inl nofun

end Verif.LoopExecutor
