import Verif.BoundedQueue.Spec
/-! # The ring buffer represents a list -/

namespace Verif.BoundedQueue
variable {V : Type}

theorem mod_eq_or {a c : Nat} (h : a < 2 * c) : (a < c ∧ a % c = a) ∨ (c ≤ a ∧ a % c = a - c) := by
  by_cases h1 : a < c
  · exact Or.inl ⟨h1, Nat.mod_eq_of_lt h1⟩
  · right
    refine ⟨by omega, ?_⟩
    rw [Nat.mod_eq_sub_mod (by omega)]
    exact Nat.mod_eq_of_lt (by omega)

/-- The slots from `out_` up to `in_`, cyclically, hold exactly `items`. -/
structure Ring (s : State V) (cap : Nat) (items : List V) : Prop where
  cap_eq : s.capacity = cap + 1
  len : s.data.length = cap + 1
  out_lt : s.out < cap + 1
  room : items.length ≤ cap
  inp_eq : s.inp = (s.out + items.length) % (cap + 1)
  slots : ∀ i v, items[i]? = some v → s.data[(s.out + i) % (cap + 1)]? = some (some v)

theorem Ring.inp_lt {s : State V} {cap : Nat} {items : List V} (h : Ring s cap items) : s.inp < cap + 1 := by
  rw [h.inp_eq]; exact Nat.mod_lt _ (by omega)

theorem Ring.empty_iff {s : State V} {cap : Nat} {items : List V} (h : Ring s cap items) : s.isEmpty = items.isEmpty := by
  have h1 := h.inp_eq; have h2 := h.out_lt; have h3 := h.room
  have h4 := mod_eq_or (a := s.out + items.length) (c := cap + 1) (by omega)
  cases items with
  | nil => simp [State.isEmpty, h1]; simp at h4; omega
  | cons a l => simp only [State.isEmpty, List.isEmpty_cons, beq_eq_false_iff_ne]; simp only [List.length_cons] at h1 h3 h4; omega

theorem Ring.full_iff {s : State V} {cap : Nat} {items : List V} (h : Ring s cap items) :
    s.isFull = decide (items.length = cap) := by
  have h1 := h.inp_eq; have h2 := h.out_lt; have h3 := h.room; have h5 := h.inp_lt
  have h4 := mod_eq_or (a := s.out + items.length) (c := cap + 1) (by omega)
  have h6 := mod_eq_or (a := s.inp + 1) (c := cap + 1) (by omega)
  simp only [State.isFull, State.inc, h.cap_eq]
  rw [Bool.eq_iff_iff]
  simp only [beq_iff_eq, decide_eq_true_eq]
  omega

theorem Ring.push {s : State V} {cap : Nat} {items : List V} (h : Ring s cap items) (v : V) (hr : items.length < cap) :
    Ring { s with data := s.data.set s.inp (some v), inp := s.inc s.inp } cap (items ++ [v]) := by
  have h1 := h.inp_eq; have h2 := h.out_lt; have h3 := h.room; have h5 := h.inp_lt
  have h4 := mod_eq_or (a := s.out + items.length) (c := cap + 1) (by omega)
  refine ⟨h.cap_eq, by simp [h.len], h2, by simp; omega, ?_, ?_⟩
  · have h6 := mod_eq_or (a := s.inp + 1) (c := cap + 1) (by omega)
    have h7 := mod_eq_or (a := s.out + (items.length + 1)) (c := cap + 1) (by omega)
    simp only [State.inc, h.cap_eq, List.length_append, List.length_cons, List.length_nil, Nat.zero_add]
    omega
  · intro i w hi
    simp only
    by_cases hlt : i < items.length
    · rw [List.getElem?_append_left hlt] at hi
      have h7 := mod_eq_or (a := s.out + i) (c := cap + 1) (by omega)
      rw [List.getElem?_set_ne (by omega)]
      exact h.slots i w hi
    · have hi' : i = items.length := by
        have := (List.getElem?_eq_some_iff.mp hi).1
        simp at this; omega
      subst hi'
      simp only [List.getElem?_concat_length, Option.some.injEq] at hi
      subst hi
      rw [← h1]
      simp [h.len, h5]

theorem Ring.front {s : State V} {cap : Nat} {v : V} {items : List V} (h : Ring s cap (v :: items)) :
    s.data[s.out]? = some (some v) := by
  have := h.slots 0 v rfl
  rwa [Nat.add_zero, Nat.mod_eq_of_lt h.out_lt] at this

theorem Ring.pull {s : State V} {cap : Nat} {v : V} {items : List V} (h : Ring s cap (v :: items)) :
    Ring { s with out := s.inc s.out } cap items := by
  have h1 := h.inp_eq; have h2 := h.out_lt; have h3 := h.room
  simp only [List.length_cons] at h1 h3
  have h6 := mod_eq_or (a := s.out + 1) (c := cap + 1) (by omega)
  have h4 := mod_eq_or (a := s.out + (items.length + 1)) (c := cap + 1) (by omega)
  refine ⟨h.cap_eq, h.len, ?_, by omega, ?_, ?_⟩
  · simp only [State.inc, h.cap_eq]; exact Nat.mod_lt _ (by omega)
  · simp only [State.inc, h.cap_eq]
    have h7 := mod_eq_or (a := (s.out + 1) % (cap + 1) + items.length) (c := cap + 1) (by omega)
    omega
  · intro i w hi
    have := h.slots (i + 1) w (by simpa using hi)
    have hi' := (List.getElem?_eq_some_iff.mp hi).1
    simp only [State.inc, h.cap_eq]
    have h7 := mod_eq_or (a := (s.out + 1) % (cap + 1) + i) (c := cap + 1) (by omega)
    have h8 := mod_eq_or (a := s.out + (i + 1)) (c := cap + 1) (by omega)
    rw [show ((s.out + 1) % (cap + 1) + i) % (cap + 1) = (s.out + (i + 1)) % (cap + 1) by omega]
    exact this

/-- What `size()` really computes. -/
theorem Ring.size {s : State V} {cap : Nat} {items : List V} (h : Ring s cap items) :
    s.size = items.length ∨ (s.size + 1 = items.length ∧ items.length < cap) := by
  have h1 := h.inp_eq; have h2 := h.out_lt; have h3 := h.room; have h5 := h.inp_lt
  have h4 := mod_eq_or (a := s.out + items.length) (c := cap + 1) (by omega)
  simp only [State.size, h.full_iff, h.cap_eq, Nat.add_sub_cancel]
  split
  · next hf => simp at hf; left; omega
  · next hf =>
    simp at hf
    have hc : 0 < cap := by omega
    have h6 := mod_eq_or (a := s.inp + cap - s.out) (c := cap) (by omega)
    omega

theorem ring_init (cap n : Nat) : Ring (init V cap n) cap [] :=
  ⟨rfl, by simp [init], by simp [init], by simp, by simp [init], by simp⟩

/-- The ring does not depend on the waiter counts, the flag or the threads. -/
theorem Ring.congr {s s' : State V} {cap : Nat} {items : List V} (h : Ring s cap items) (h1 : s'.capacity = s.capacity)
    (h2 : s'.data = s.data) (h3 : s'.inp = s.inp) (h4 : s'.out = s.out) : Ring s' cap items :=
  ⟨by rw [h1]; exact h.cap_eq, by rw [h2]; exact h.len, by rw [h4]; exact h.out_lt, h.room, by rw [h3, h4]; exact h.inp_eq,
   by rw [h2, h4]; exact h.slots⟩

end Verif.BoundedQueue
