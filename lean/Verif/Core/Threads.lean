/-!
# Finite collections of threads

Threads are numbered `0 .. n-1` and their local states are kept in a list. The lemmas below count
threads in a given local state across an update of one thread.
-/

namespace Verif

/-- 1 for `true`, 0 for `false`. -/
def b2n (b : Bool) : Nat := if b then 1 else 0

@[simp] theorem b2n_true : b2n true = 1 := rfl
@[simp] theorem b2n_false : b2n false = 0 := rfl
theorem b2n_le (b : Bool) : b2n b ≤ 1 := by cases b <;> simp

/-- Number of threads whose local state satisfies `f`. -/
def cnt {α : Type} (f : α → Bool) (ts : List α) : Nat := ts.countP f

@[simp] theorem cnt_nil {α : Type} (f : α → Bool) : cnt f [] = 0 := rfl

@[simp] theorem cnt_cons {α : Type} (f : α → Bool) (a : α) (ts : List α) :
    cnt f (a :: ts) = cnt f ts + b2n (f a) := by
  simp only [cnt, List.countP_cons, b2n]

theorem cnt_set {α : Type} (f : α → Bool) {ts : List α} {t : Nat} {p : α} (q : α) (h : ts[t]? = some p) :
    cnt f (ts.set t q) + b2n (f p) = cnt f ts + b2n (f q) := by
  induction ts generalizing t with
  | nil => simp at h
  | cons a ts ih =>
    cases t with
    | zero =>
      simp only [List.getElem?_cons_zero, Option.some.injEq] at h
      subst h
      simp only [List.set_cons_zero, cnt_cons]; omega
    | succ t =>
      simp only [List.getElem?_cons_succ] at h
      have := ih h
      simp only [List.set_cons_succ, cnt_cons]; omega

theorem cnt_pos {α : Type} {f : α → Bool} {ts : List α} {t : Nat} {p : α} (h : ts[t]? = some p)
    (hf : f p = true) : 0 < cnt f ts := by
  have := cnt_set f p h
  unfold cnt
  rw [List.countP_pos_iff]
  exact ⟨p, List.mem_of_getElem? h, hf⟩

theorem exists_of_cnt_pos {α : Type} {f : α → Bool} {ts : List α} (h : 0 < cnt f ts) :
    ∃ (t : Nat) (p : α), ts[t]? = some p ∧ f p = true := by
  unfold cnt at h
  rw [List.countP_pos_iff] at h
  obtain ⟨p, hm, hf⟩ := h
  obtain ⟨t, ht⟩ := List.getElem?_of_mem hm
  exact ⟨t, p, ht, hf⟩

theorem cnt_eq_zero {α : Type} {f : α → Bool} {ts : List α} :
    cnt f ts = 0 ↔ ∀ (t : Nat) (p : α), ts[t]? = some p → f p = false := by
  constructor
  · intro h t p hp
    cases hf : f p with
    | false => rfl
    | true => have := cnt_pos hp hf; omega
  · intro h
    cases hc : cnt f ts with
    | zero => rfl
    | succ n =>
      obtain ⟨t, p, hp, hf⟩ := exists_of_cnt_pos (f := f) (ts := ts) (by omega)
      rw [h t p hp] at hf; cases hf

theorem cnt_replicate {α : Type} (f : α → Bool) (n : Nat) (a : α) :
    cnt f (List.replicate n a) = if f a then n else 0 := by
  unfold cnt; rw [List.countP_replicate]

theorem cnt_map {α β : Type} (f : β → Bool) (g : α → β) (ts : List α) :
    cnt f (ts.map g) = cnt (fun a => f (g a)) ts := by
  unfold cnt; rw [List.countP_map]; rfl

theorem cnt_congr {α : Type} {f g : α → Bool} (ts : List α) (h : ∀ a, f a = g a) : cnt f ts = cnt g ts := by
  rw [show f = g from funext h]

theorem cnt_le_length {α : Type} (f : α → Bool) (ts : List α) : cnt f ts ≤ ts.length :=
  List.countP_le_length

theorem cnt_add {α : Type} (f g h : α → Bool) (ts : List α) (hh : ∀ a, b2n (h a) = b2n (f a) + b2n (g a)) :
    cnt h ts = cnt f ts + cnt g ts := by
  induction ts with
  | nil => rfl
  | cons a ts ih => simp only [cnt_cons, ih, hh]; omega

theorem cnt_le {α : Type} {f g : α → Bool} (ts : List α) (h : ∀ a, f a = true → g a = true) :
    cnt f ts ≤ cnt g ts := by
  induction ts with
  | nil => simp
  | cons a ts ih =>
    simp only [cnt_cons]
    have : b2n (f a) ≤ b2n (g a) := by
      cases hf : f a with
      | false => simp
      | true => rw [h a hf]; exact Nat.le_refl _
    omega

/-- Two different threads in states satisfying `f`: the count is at least two. -/
theorem cnt_ge_two {α : Type} {f : α → Bool} {ts : List α} {t u : Nat} {p q : α} (ht : ts[t]? = some p)
    (hu : ts[u]? = some q) (hne : t ≠ u) (hp : f p = true) (hq : f q = true) : 2 ≤ cnt f ts := by
  induction ts generalizing t u with
  | nil => simp at ht
  | cons a ts ih =>
    cases t with
    | zero =>
      cases u with
      | zero => exact absurd rfl hne
      | succ u =>
        simp only [List.getElem?_cons_zero, Option.some.injEq] at ht
        simp only [List.getElem?_cons_succ] at hu
        subst ht
        have := cnt_pos hu hq
        simp only [cnt_cons, hp, b2n_true]; omega
    | succ t =>
      cases u with
      | zero =>
        simp only [List.getElem?_cons_zero, Option.some.injEq] at hu
        simp only [List.getElem?_cons_succ] at ht
        subst hu
        have := cnt_pos ht hp
        simp only [cnt_cons, hq, b2n_true]; omega
      | succ u =>
        simp only [List.getElem?_cons_succ] at ht hu
        have := ih ht hu (by omega)
        simp only [cnt_cons]; omega

theorem cnt_le_one {α : Type} {f : α → Bool} {ts : List α}
    (h : ∀ (t u : Nat) (p q : α), ts[t]? = some p → ts[u]? = some q → f p = true → f q = true → t = u) :
    cnt f ts ≤ 1 := by
  induction ts with
  | nil => simp
  | cons a ts ih =>
    have ih' := ih fun t u p q ht hu hp hq => by
      have := h (t + 1) (u + 1) p q (by simpa using ht) (by simpa using hu) hp hq
      omega
    simp only [cnt_cons]
    cases ha : f a with
    | false => simpa using ih'
    | true =>
      have : cnt f ts = 0 := by
        rw [cnt_eq_zero]
        intro t p hp
        cases hf : f p with
        | false => rfl
        | true => have := h 0 (t + 1) a p rfl (by simpa using hp) ha hf; omega
      simp [this]

theorem getElem?_set_eq {α : Type} {ts : List α} {t u : Nat} {p q : α} (h : ts[t]? = some p) :
    (ts.set t q)[u]? = if t = u then some q else ts[u]? := by
  have hlt : t < ts.length := by
    rcases Nat.lt_or_ge t ts.length with h' | h'
    · exact h'
    · rw [List.getElem?_eq_none h'] at h; cases h
  by_cases hu : t = u
  · subst hu; simp [hlt]
  · rw [List.getElem?_set_ne hu, if_neg hu]

end Verif
