import Verif.Helping.Spec
/-! # `reschedule_until`: the model follows the specification -/

namespace Verif.Helping

def abs : Frame → Open
  | .seek => .helping
  | .holds c b => .given c b
  | .runs c b => .inside c b
  | .asks => .asking

structure R (s : State) (σ : Spec) : Prop where
  acc : σ.acc = s.next
  le : σ.taken ≤ s.next
  q : s.q = List.range' σ.taken (s.next - σ.taken)
  closed : σ.closed = s.closed
  calls : ∀ t, σ.calls t = (s.stk t).map abs
  due : s.dead = false → σ.due = none

theorem R.init : R init Spec.init := ⟨rfl, Nat.le_refl _, rfl, rfl, fun _ => rfl, fun _ => rfl⟩

theorem outside_eq {s : State} {σ : Spec} (h : R s σ) (t : Nat) : σ.outside t = mayCall s t := by
  have hc := h.calls t
  simp only [Spec.outside, mayCall, hc]
  cases s.stk t with
  | nil => rfl
  | cons f fs => cases f <;> rfl

theorem calls_upd {s : State} {σ : Spec} (h : R s σ) (t : Nat) {os : List Open} {fs : List Frame} (he : os = fs.map abs) : ∀ u, upd σ.calls t os u = (upd s.stk t fs u).map abs := by
  intro u
  simp only [upd_apply]
  split
  · exact he
  · exact h.calls u

theorem head {s : State} {σ : Spec} {c : Nat} {q : List Nat} (h : R s σ) (hq : s.q = c :: q) : c = σ.taken ∧ c < σ.acc ∧ q = List.range' (c + 1) (s.next - (c + 1)) := by
  have h1 := h.q
  have h2 := h.le
  rw [hq] at h1
  cases hk : s.next - σ.taken with
  | zero => rw [hk] at h1; cases h1
  | succ k =>
    rw [hk, List.range'_succ] at h1
    injection h1 with h3 h4
    refine ⟨h3, by rw [h.acc]; omega, ?_⟩
    rw [h4, h3]
    congr 1
    omega

theorem empty {s : State} {σ : Spec} (h : R s σ) (hq : s.q = []) : σ.taken = σ.acc := by
  have h1 := h.q
  have h2 := h.le
  rw [hq] at h1
  have h3 := congrArg List.length h1
  simp only [List.length_nil, List.length_range'] at h3
  rw [h.acc]; omega

theorem sim {us : Bool} {s s' : State} {l : Label} {es : List Event} {σ : Spec} (h : R s σ) (hs : step us s l = some (s', es)) : Follows (next (!us)) (R s') σ es := by
  unfold step at hs
  split at hs
  · cases hs
  next hd =>
  have hd' : s.dead = false := by simpa using hd
  have hdue := h.due hd'
  cases l with
  | submit t =>
    simp only at hs
    split at hs
    · next hm =>
      have ho := outside_eq h t
      rw [hm] at ho
      split at hs
      · next hc =>
        cases hs
        simp only [Follows, next, hdue, live, h.closed, hc, ho, and_self, if_true]
        exact h
      · next hc =>
        cases hs
        have hc' : s.closed = false := by simpa using hc
        simp only [Follows, next, hdue, live, h.closed, hc', ho, h.acc, and_self, if_true]
        refine ⟨rfl, Nat.le_succ_of_le h.le, ?_, hc'.symm ▸ rfl, h.calls, fun _ => rfl⟩
        have h2 := h.le
        rw [show s.next + 1 - σ.taken = (s.next - σ.taken) + 1 by omega, List.range'_concat, h.q, show σ.taken + 1 * (s.next - σ.taken) = s.next by omega]
    · cases hs
  | close t =>
    simp only at hs
    split at hs
    · next hm =>
      have ho := outside_eq h t
      rw [hm] at ho
      cases hs
      simp only [Follows, next, hdue, live, ho, if_true]
      exact ⟨h.acc, h.le, h.q, rfl, h.calls, fun _ => rfl⟩
    · cases hs
  | call t =>
    simp only at hs
    split at hs
    · next hm =>
      have ho := outside_eq h t
      rw [hm] at ho
      cases hs
      simp only [Follows, next, hdue, live, ho, if_true]
      exact ⟨h.acc, h.le, h.q, h.closed, calls_upd h t (by rw [h.calls t]; rfl), fun _ => rfl⟩
    · cases hs
  | take t =>
    simp only at hs
    split at hs
    · next hm =>
      have ho := outside_eq h t
      rw [hm] at ho
      split at hs
      · next c q hq =>
        cases hs
        obtain ⟨h1, h2, h3⟩ := head h hq
        have hne : ∀ rest, σ.calls t ≠ .helping :: rest := by
          intro rest hr
          simp only [Spec.outside, hr] at ho
          cases ho
        have hl : live (!us) σ (.took t c) = .ok { σ with taken := c + 1, calls := upd σ.calls t (.given c false :: σ.calls t) } := by
          simp only [live]
          rw [if_pos ⟨h1, h2⟩]
          cases hcs : σ.calls t with
          | nil => simp only [ho, if_true]
          | cons o os =>
            cases o with
            | helping => exact absurd hcs (hne os)
            | _ => simp only [ho, if_true]
        simp only [Follows, next, hdue, hl]
        refine ⟨h.acc, ?_, h3, h.closed, calls_upd h t (by rw [h.calls t]; rfl), fun _ => rfl⟩
        rw [h.acc] at h2; exact h2
      · cases hs
    · cases hs
  | look t =>
    simp only [look] at hs
    split at hs
    · next fs hf =>
      have hc := h.calls t
      rw [hf, List.map_cons] at hc
      split at hs
      · next c q hq =>
        cases hs
        obtain ⟨h1, h2, h3⟩ := head h hq
        simp only [Follows, next, hdue, live, hc, abs, if_pos (And.intro h1 h2)]
        refine ⟨h.acc, ?_, h3, h.closed, calls_upd h t rfl, fun _ => rfl⟩
        rw [h.acc] at h2; exact h2
      · next hq =>
        cases hs
        simp only [Follows, next, hdue, live, hc, abs, if_pos (And.intro trivial (empty h hq))]
        exact ⟨h.acc, h.le, h.q, h.closed, calls_upd h t rfl, fun _ => rfl⟩
    · cases hs
  | start t =>
    simp only [start] at hs
    split at hs
    · next c b fs hf =>
      have hc := h.calls t
      rw [hf, List.map_cons] at hc
      cases hs
      simp only [Follows, next, hdue, live, hc, abs, if_true]
      exact ⟨h.acc, h.le, h.q, h.closed, calls_upd h t rfl, fun _ => rfl⟩
    · cases hs
  | finish t =>
    simp only [finish] at hs
    split at hs
    · next c fs hf =>
      have hc := h.calls t
      rw [hf, List.map_cons] at hc
      cases hs
      simp only [Follows, next, hdue, live, hc, abs, if_true]
      exact ⟨h.acc, h.le, h.q, h.closed, calls_upd h t rfl, fun _ => rfl⟩
    · next c fs hf =>
      have hc := h.calls t
      rw [hf, List.map_cons] at hc
      cases hs
      simp only [Follows, next, hdue, live, hc, abs, if_true]
      exact ⟨h.acc, h.le, h.q, h.closed, calls_upd h t rfl, fun _ => rfl⟩
    · cases hs
  | throw t =>
    simp only [throw] at hs
    split at hs
    · next c b fs hf =>
      have hc := h.calls t
      rw [hf, List.map_cons] at hc
      cases us with
      | true =>
        cases b with
        | true =>
          simp only [if_true] at hs
          cases hs
          simp only [Follows, next, hdue, live, hc, abs, Bool.not_true, if_true, Bool.false_eq_true, if_false]
          exact ⟨h.acc, h.le, h.q, h.closed, calls_upd h t rfl, fun _ => rfl⟩
        | false =>
          simp only [if_true, Bool.false_eq_true, if_false] at hs
          cases hs
          simp only [Follows, next, hdue, live, hc, abs, Bool.not_true, if_true, Bool.false_eq_true, if_false]
          exact ⟨h.acc, h.le, h.q, h.closed, calls_upd h t rfl, fun _ => rfl⟩
      | false =>
        simp only [Bool.false_eq_true, if_false] at hs
        cases hs
        simp only [Follows, next, hdue, live, hc, abs, Bool.not_false, if_true]
        exact ⟨h.acc, h.le, h.q, h.closed, h.calls, fun _ => rfl⟩
    · cases hs
  | pred t b =>
    simp only [pred] at hs
    split at hs
    · next fs hf =>
      have hc := h.calls t
      rw [hf, List.map_cons] at hc
      cases b with
      | true =>
        simp only [if_true] at hs
        cases hs
        simp only [Follows, next, hdue, live, hc, abs, if_true]
        exact ⟨h.acc, h.le, h.q, h.closed, calls_upd h t rfl, fun _ => rfl⟩
      | false =>
        simp only [Bool.false_eq_true, if_false] at hs
        cases hs
        simp only [Follows, next, hdue, live, hc, abs, Bool.false_eq_true, if_false]
        exact ⟨h.acc, h.le, h.q, h.closed, calls_upd h t rfl, fun _ => rfl⟩
    · cases hs
  | predThrow t =>
    simp only at hs
    split at hs
    · next fs hf =>
      have hc := h.calls t
      rw [hf, List.map_cons] at hc
      cases hs
      simp only [Follows, next, hdue, live, hc, abs]
      exact ⟨h.acc, h.le, h.q, h.closed, calls_upd h t rfl, fun _ => rfl⟩
    · cases hs

end Verif.Helping
