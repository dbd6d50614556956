import Verif.StackSize.Model
/-!
# C48: the stack size
-/

namespace Verif.StackSize

/-- `k` is the smallest multiple of `page` that is at least `n`. -/
def LeastMultiple (page n k : Nat) : Prop := page ∣ k ∧ n ≤ k ∧ ∀ j, page ∣ j → n ≤ j → k ≤ j

/-- C48, for every size, page size and minimum for which the rounded size fits in `size_t`: the requested size is the smallest multiple of the page size that is
at least the larger of the size and the minimum. -/
theorem smallest_multiple_partial {m page min size : Nat} (hp : 0 < page) (h0 : size ≠ 0) (hfit : max size min + page ≤ m) :
    ∃ k, setStackSize m page min size = some k ∧ LeastMultiple page (max size min) k := by
  have hmax : (if size < min then min else size) = max size min := by
    rw [Nat.max_def]; split <;> split <;> omega
  refine ⟨_, by simp only [setStackSize, h0, if_false, hmax]; rfl, ?_⟩
  generalize hn : max size min = n at *
  have hn0 : 0 < n := by
    have := Nat.le_max_left size min; omega
  have e1 : (n + page + (m - 1)) % m = n + page - 1 := by
    have : n + page + (m - 1) = (n + page - 1) + m := by omega
    rw [this, Nat.add_mod_right]
    exact Nat.mod_eq_of_lt (by omega)
  rw [e1]
  have hd := Nat.div_add_mod (n + page - 1) page
  have hlt := Nat.mod_lt (n + page - 1) hp
  have hc := Nat.mul_comm page ((n + page - 1) / page)
  have e2 : (n + page - 1) / page * page % m = (n + page - 1) / page * page := Nat.mod_eq_of_lt (by omega)
  rw [e2]
  refine ⟨⟨_, Nat.mul_comm _ _⟩, by omega, ?_⟩
  rintro j ⟨q, rfl⟩ hj
  have : (n + page - 1) / page ≤ q := by
    rw [Nat.div_le_iff_le_mul_add_pred hp]
    omega
  rw [Nat.mul_comm page q]
  exact Nat.mul_le_mul_right page this

example : (0 : Nat) < 4096 ∧ max 20000 16384 + 4096 ≤ 2 ^ 64 ∧ setStackSize (2 ^ 64) 4096 16384 20000 = some 20480 ∧
    setStackSize (2 ^ 64) 4096 16384 1 = some 16384 := by decide

/-- A size of 0 leaves the attributes unchanged, whatever the minimum. -/
theorem zero_ignored (m page min : Nat) : setStackSize m page min 0 = none := rfl

/-- Near the end of the address range the rounding wraps around, and a stack of size 0 is requested. -/
theorem overflow_fails : ∃ size, size < 2 ^ 64 ∧ setStackSize (2 ^ 64) 4096 16384 size = some 0 ∧ ¬ LeastMultiple 4096 (max size 16384) 0 :=
  ⟨2 ^ 64 - 1, by decide, by decide, fun h => absurd h.2.1 (by decide)⟩

end Verif.StackSize
