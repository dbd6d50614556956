/-! # Counting with lists -/

namespace Verif

/-- Distinct elements of a list, all of which occur in another one, are not more than that one has. -/
theorem length_le_of_nodup_subset {α : Type} [DecidableEq α] {l m : List α} (h : l.Nodup) (hs : ∀ a ∈ l, a ∈ m) : l.length ≤ m.length := by
  induction l generalizing m with
  | nil => simp
  | cons a l ih =>
    have ha : a ∈ m := hs a (List.mem_cons_self ..)
    have h' := List.nodup_cons.mp h
    have := ih (m := m.erase a) h'.2 fun b hb => by
      have hne : b ≠ a := fun e => h'.1 (e ▸ hb)
      exact (List.mem_erase_of_ne hne).mpr (hs b (List.mem_cons_of_mem _ hb))
    rw [List.length_erase_of_mem ha] at this
    have hp : 0 < m.length := List.length_pos_of_mem ha
    simp only [List.length_cons]
    omega

/-- If every element of a list of distinct things belongs to somebody, nobody has two, and the owners are all in `m`, then `m` has at least as many. -/
theorem length_le_of_owners {α β : Type} [DecidableEq β] {l : List α} {m : List β} (own : α → β → Prop) (h : l.Nodup)
    (ho : ∀ a ∈ l, ∃ b ∈ m, own a b) (hu : ∀ a ∈ l, ∀ a' ∈ l, ∀ b, own a b → own a' b → a = a') : l.length ≤ m.length := by
  classical
  let f : α → Option β := fun a => if h : ∃ b, b ∈ m ∧ own a b then some h.choose else none
  have hf : ∀ a ∈ l, ∃ b ∈ m, own a b ∧ f a = some b := by
    intro a ha
    obtain ⟨b, hb, hab⟩ := ho a ha
    have hex : ∃ b, b ∈ m ∧ own a b := ⟨b, hb, hab⟩
    exact ⟨hex.choose, hex.choose_spec.1, hex.choose_spec.2, by simp only [f]; rw [dif_pos hex]⟩
  have hn : (l.map f).Nodup := by
    clear ho
    induction l with
    | nil => simp
    | cons a l ih =>
      have h' := List.nodup_cons.mp h
      refine List.nodup_cons.mpr ⟨?_, ih h'.2 (fun x hx y hy => hu x (List.mem_cons_of_mem _ hx) y (List.mem_cons_of_mem _ hy))
        fun x hx => hf x (List.mem_cons_of_mem _ hx)⟩
      intro hm
      obtain ⟨x, hx, e⟩ := List.mem_map.mp hm
      obtain ⟨b, _, h1, h2⟩ := hf a (List.mem_cons_self ..)
      obtain ⟨b', _, h3, h4⟩ := hf x (List.mem_cons_of_mem _ hx)
      have : b = b' := by rw [h2, h4] at e; exact (Option.some.inj e).symm
      subst this
      exact h'.1 (hu a (List.mem_cons_self ..) x (List.mem_cons_of_mem _ hx) b h1 h3 ▸ hx)
  have := length_le_of_nodup_subset (m := m.map some) hn fun o hm => by
    obtain ⟨x, hx, e⟩ := List.mem_map.mp hm
    obtain ⟨b, hb, _, h2⟩ := hf x hx
    exact List.mem_map.mpr ⟨b, hb, by rw [← h2, e]⟩
  simpa using this

theorem length_filter_le_of_imp {α : Type} {p q : α → Bool} {l : List α} (h : ∀ x ∈ l, q x = true → p x = true) :
    (l.filter q).length ≤ (l.filter p).length := by
  induction l with
  | nil => simp
  | cons a l ih =>
    have ih := ih fun x hx => h x (List.mem_cons_of_mem _ hx)
    have ha := h a (List.mem_cons_self ..)
    simp only [List.filter_cons]
    split <;> split <;> simp_all <;> omega

theorem length_filter_lt_of_imp {α : Type} {p q : α → Bool} {l : List α} (h : ∀ x ∈ l, q x = true → p x = true) {a : α} (ha : a ∈ l)
    (hp : p a = true) (hq : q a = false) : (l.filter q).length < (l.filter p).length := by
  induction l with
  | nil => cases ha
  | cons b l ih =>
    have hl : ∀ x ∈ l, q x = true → p x = true := fun x hx => h x (List.mem_cons_of_mem _ hx)
    have hle := length_filter_le_of_imp hl
    have hb := h b (List.mem_cons_self ..)
    simp only [List.filter_cons]
    rcases List.mem_cons.mp ha with e | hm
    · subst e
      simp only [hp, hq, if_true, List.length_cons]
      simp only [Bool.false_eq_true, if_false]
      omega
    · have := ih hl hm
      split <;> split <;> simp_all <;> omega

end Verif
