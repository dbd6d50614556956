import Verif.Devector.Model
/-! # A container in order is a list -/

namespace Verif.Devector
variable {V : Type}

/-- The elements a user of the container has put in and not taken out. -/
def items (d : Devector V) : List V := d.vec.drop d.fi

/-- The container is in order: it is empty with the index reset, or the index is that of an element. -/
def Ok (d : Devector V) : Prop := d.vec = [] ∧ d.fi = 0 ∨ d.fi < d.vec.length

theorem Ok.le {d : Devector V} (h : d.Ok) : d.fi ≤ d.vec.length := by rcases h with ⟨h1, h2⟩ | h <;> omega

theorem ok_new : (new V).Ok := .inl ⟨rfl, rfl⟩

theorem items_new : (new V).items = [] := rfl

theorem Ok.empty {d : Devector V} (h : d.Ok) : d.empty = d.items.isEmpty := by
  rw [Bool.eq_iff_iff]
  simp only [Devector.empty, beq_iff_eq, items, List.isEmpty_iff, List.drop_eq_nil_iff]
  rcases h with ⟨h1, h2⟩ | h
  · simp [h1, h2]
  · omega

theorem Ok.items_nil {d : Devector V} (h : d.Ok) (hi : d.items = []) : d = new V := by
  have hl := congrArg List.length hi
  simp only [items, List.length_drop, List.length_nil] at hl
  rcases h with ⟨h1, h2⟩ | h
  · cases d; simp_all [new]
  · omega

theorem Ok.size {d : Devector V} (h : d.Ok) : d.size = d.items.length := by
  simp [Devector.size, items, List.length_drop, h.le]

theorem front_eq (d : Devector V) : d.front = d.items.head? := by simp [front, items, List.head?_drop]

theorem Ok.front_cons {d : Devector V} {v : V} {l : List V} (h : d.items = v :: l) : d.front = some v := by simp [front_eq, h]

theorem Ok.pushBack {d : Devector V} (h : d.Ok) (v : V) : (d.pushBack v).Ok := by
  right
  simp only [Devector.pushBack, List.length_append, List.length_cons, List.length_nil]
  have := h.le
  omega

theorem Ok.items_pushBack {d : Devector V} (h : d.Ok) (v : V) : (d.pushBack v).items = d.items ++ [v] := by
  simp only [Devector.pushBack, items]
  rw [List.drop_append_of_le_length h.le]

theorem Ok.popFront {d : Devector V} {v : V} {l : List V} (h : d.Ok) (hi : d.items = v :: l) : d.popFront.Ok ∧ d.popFront.items = l := by
  have hl := congrArg List.length hi
  simp only [items, List.length_drop, List.length_cons] at hl
  have hd : d.vec.drop (d.fi + 1) = l := by
    have : d.vec.drop (d.fi + 1) = (d.vec.drop d.fi).drop 1 := by rw [List.drop_drop]
    rw [this, show d.vec.drop d.fi = v :: l from hi]; rfl
  simp only [Devector.popFront, Devector.empty, skip, beq_iff_eq]
  split
  · rename_i he
    refine ⟨.inl ⟨rfl, rfl⟩, ?_⟩
    rw [← hd, ← he, List.drop_length]; rfl
  · exact ⟨.inr (by simp only; omega), hd⟩

/-- The index is positive exactly when something has been taken out of what is stored. -/
theorem fi_popFront {d : Devector V} {v : V} {l : List V} (h : d.Ok) (hi : d.items = v :: l) : (0 < d.popFront.fi) ↔ l ≠ [] := by
  have hp := h.popFront hi
  have hl := congrArg List.length hi
  simp only [items, List.length_drop, List.length_cons] at hl
  simp only [Devector.popFront, Devector.empty, skip, beq_iff_eq]
  split
  · have : l.length = 0 := by omega
    simp [List.length_eq_zero_iff.mp this]
  · have : l.length ≠ 0 := by omega
    simp only [Nat.zero_lt_succ, true_iff]
    intro h0; simp [h0] at this

theorem ok_movedFrom {d : Devector V} : d.movedFrom.Ok ↔ d.fi = 0 := by simp [movedFrom, Ok]

theorem items_movedFrom {d : Devector V} : d.movedFrom.items = [] := by simp [movedFrom, items]

theorem drain_items {d : Devector V} (h : d.Ok) : ∀ n, d.items.length ≤ n → drain n d = some d.items := by
  intro n
  induction n generalizing d with
  | zero =>
    intro hn
    have : d.items = [] := List.length_eq_zero_iff.mp (by omega)
    simp [drain, h.empty, this]
  | succ n ih =>
    intro hn
    cases hi : d.items with
    | nil => simp [drain, h.empty, hi]
    | cons v l =>
      have hp := h.popFront hi
      have hn' : d.popFront.items.length ≤ n := by rw [hp.2]; simp [hi] at hn; omega
      simp [drain, h.empty, hi, Ok.front_cons hi, ih hp.1 hn', hp.2]

end Verif.Devector
