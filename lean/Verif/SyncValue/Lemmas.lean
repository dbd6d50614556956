import Verif.SyncValue.Spec
/-!
# `synchronized_value`: invariant
-/

set_option linter.unusedSimpArgs false

namespace Verif.SyncValue

@[grind =] theorem upd_apply {α : Type} (f : Nat → α) (i : Nat) (x : α) (j : Nat) : upd f i x j = if j = i then x else f j := rfl

/-- The mutexes held at a point. -/
def PC.holds : PC → List Nat
  | .in1 k _ => [k]
  | .second _ a b f => [fst a b f]
  | .undo _ a b f => [fst a b f]
  | .in2 _ a b => [b, a]
  | .assign2 a b _ => [b, a]
  | .cmp2 _ a b _ => [b, a]
  | .swap2 a b _ => [b, a]
  | .swap3 a b _ => [b, a]
  | .sect ks => ks
  | .unl ks => ks
  | _ => []

/-- Who owns what. -/
structure Own (own : Nat → Option Nat) (cnt : Nat → Nat) (h : Nat → List Nat) : Prop where
  mine : ∀ t k, own k = some t → cnt k = (h t).count k
  other : ∀ t k, own k ≠ some t → (h t).count k = 0
  free : ∀ k, own k = none → cnt k = 0
  pos : ∀ k, own k ≠ none → 0 < cnt k

theorem Own.move {own : Nat → Option Nat} {cnt : Nat → Nat} {h : Nat → List Nat} (o : Own own cnt h) {t : Nat} {l : List Nat} (e : ∀ j, l.count j = (h t).count j) :
    Own own cnt (upd h t l) := by
  obtain ⟨h1, h2, h3, h4⟩ := o
  exact ⟨fun u k => by have := h1 u k; have := e k; grind, fun u k => by have := h2 u k; have := e k; grind, h3, h4⟩

theorem Own.acquire {own : Nat → Option Nat} {cnt : Nat → Nat} {h : Nat → List Nat} (o : Own own cnt h) {t k : Nat} {l : List Nat} (hf : own k = none ∨ own k = some t)
    (e : ∀ j, l.count j = (h t).count j + if j = k then 1 else 0) : Own (upd own k (some t)) (upd cnt k (cnt k + 1)) (upd h t l) := by
  obtain ⟨h1, h2, h3, h4⟩ := o
  refine ⟨fun u j => ?_, fun u j => ?_, fun j => ?_, fun j => ?_⟩
  · have := h1 u j; have := h1 t j; have := h2 t j; have := e j; have := h3 j; grind
  · have := h2 u j; have := e j; grind
  · have := h3 j; grind
  · have := h4 j; grind

theorem Own.unlock {own : Nat → Option Nat} {cnt : Nat → Nat} {h : Nat → List Nat} (o : Own own cnt h) {t k : Nat} {l : List Nat}
    (e : ∀ j, (h t).count j = l.count j + if j = k then 1 else 0) :
    Own (if cnt k = 1 then upd own k none else own) (upd cnt k (cnt k - 1)) (upd h t l) := by
  obtain ⟨h1, h2, h3, h4⟩ := o
  have hk : own k = some t := by
    apply Classical.byContradiction; intro hc; have := h2 t k hc; have := e k; simp at this; omega
  refine ⟨fun u j => ?_, fun u j => ?_, fun j => ?_, fun j => ?_⟩
  · have := h1 u j; have := h1 t j; have := e j; have := h1 t k hk; split <;> grind
  · have := h2 u j; have := h2 t j; have := e j; have := h1 t k hk; split <;> grind
  · have := h3 j; split <;> grind
  · have := h4 j; have := h4 k; split <;> grind

theorem Own.owner {own : Nat → Option Nat} {cnt : Nat → Nat} {h : Nat → List Nat} (o : Own own cnt h) {t k : Nat} (hk : k ∈ h t) : own k = some t := by
  apply Classical.byContradiction
  intro hc
  have := o.other t k hc
  have := List.count_pos_iff.2 hk
  omega

def hold (pc : Nat → PC) : Nat → List Nat := fun t => (pc t).holds

theorem hold_upd (pc : Nat → PC) (t : Nat) (p : PC) : hold (upd pc t p) = upd (hold pc) t p.holds := by
  funext u; simp only [hold, upd_apply]; split <;> rfl

theorem free_iff {r : Bool} {s : State} {t k : Nat} (h : s.free r t k = true) : s.own k = none ∨ s.own k = some t := by
  simp only [State.free, Bool.or_eq_true, beq_iff_eq, Bool.and_eq_true] at h
  rcases h with h | h
  · exact .inl h
  · exact .inr h.2

theorem count2 (a b j : Nat) (f : Bool) : [b, a].count j = [fst a b f].count j + if j = snd a b f then 1 else 0 := by
  cases f <;> simp only [fst, snd, List.count_cons, List.count_nil, beq_iff_eq] <;> grind

/-- Nobody is using the broken form of `synchronize`. -/
def PC.no3 : PC → Prop
  | .first o _ _ _ => ∀ k, o ≠ .sync3 k
  | .second o _ _ _ => ∀ k, o ≠ .sync3 k
  | .undo o _ _ _ => ∀ k, o ≠ .sync3 k
  | .in2 o _ _ => ∀ k, o ≠ .sync3 k
  | _ => True

structure Inv (s : State) : Prop where
  own : Own s.own s.cnt (hold s.pc)
  no3 : ∀ t, (s.pc t).no3

theorem Inv.init (v : Nat → Nat) : Inv (SyncValue.init v) := by
  refine ⟨⟨?_, ?_, ?_, ?_⟩, ?_⟩ <;> simp [SyncValue.init, hold, PC.holds, PC.no3]

theorem no3_upd {pc : Nat → PC} {t : Nat} {p : PC} (h : ∀ t, (pc t).no3) (hp : p.no3) : ∀ u, (upd pc t p u).no3 := by
  intro u; simp only [upd_apply]; split; exact hp; exact h u

theorem Inv.setPc {s : State} (h : Inv s) {t : Nat} {p : PC} (e : ∀ j, p.holds.count j = (s.pc t).holds.count j) (hp : p.no3) : Inv (s.setPc t p) :=
  ⟨by simp only [State.setPc, hold_upd]; exact h.own.move e, no3_upd h.no3 hp⟩

theorem Inv.acquire {r : Bool} {s : State} (h : Inv s) {t k : Nat} {p : PC} (hf : s.free r t k = true)
    (e : ∀ j, p.holds.count j = (s.pc t).holds.count j + if j = k then 1 else 0) (hp : p.no3) : Inv ((s.acquire t k).setPc t p) :=
  ⟨by simp only [State.setPc, State.acquire, hold_upd]; exact h.own.acquire (free_iff hf) e, no3_upd h.no3 hp⟩

theorem Inv.unlock {s : State} (h : Inv s) {t k : Nat} {p : PC}
    (e : ∀ j, (s.pc t).holds.count j = p.holds.count j + if j = k then 1 else 0) (hp : p.no3) : Inv ((s.unlock k).setPc t p) :=
  ⟨by simp only [State.setPc, State.unlock, hold_upd]; exact h.own.unlock e, no3_upd h.no3 hp⟩

theorem Inv.val {s : State} (h : Inv s) (v : Nat → Nat) : Inv { s with val := v } := ⟨h.own, h.no3⟩

theorem Inv.call {s s' : State} {t : Nat} {c : Call} {es : List Event} (h : Inv s) (hi : s.pc t = .idle) (hs : call false s t c = some (s', es)) : Inv s' := by
  have e : ∀ j, (s.pc t).holds.count j = 0 := by intro j; rw [hi]; rfl
  cases c with
  | one k o =>
    simp only [SyncValue.call, Option.some.injEq, Prod.mk.injEq] at hs
    obtain ⟨rfl, _⟩ := hs
    exact h.setPc (fun j => (e j).symm ▸ rfl) trivial
  | two a b o =>
    cases o <;> simp only [SyncValue.call] at hs <;> (try split at hs) <;> simp only [Option.some.injEq, Prod.mk.injEq, reduceCtorEq, Bool.false_eq_true, if_false] at hs <;>
      obtain ⟨rfl, _⟩ := hs <;> first | exact h | contradiction | exact h.setPc (fun j => (e j).symm ▸ rfl) (by simp [PC.no3])

theorem Inv.go {r : Bool} {s s' : State} {t : Nat} {es : List Event} (h : Inv s) (hs : go r s t = some (s', es)) : Inv s' := by
  have h3 := h.no3 t
  simp only [SyncValue.go] at hs
  split at hs
  all_goals rename_i hpc; rw [hpc] at h3
  all_goals (try split at hs) <;> (try simp only [Option.some.injEq, Prod.mk.injEq, reduceCtorEq] at hs) <;> (try obtain ⟨rfl, hes⟩ := hs) <;> (try clear hes)
  · rename_i hf; exact h.acquire hf (fun j => by rw [hpc]; simp only [PC.holds, List.count_cons, List.count_nil, beq_iff_eq]; grind) trivial
  · exact h.setPc (fun j => by rw [hpc]; rfl) trivial
  · exact (h.val _).setPc (fun j => by rw [hpc]; rfl) trivial
  · exact h.setPc (fun j => by rw [hpc]; rfl) trivial
  · exact h.setPc (fun j => by rw [hpc]; rfl) trivial
  · rename_i hf; exact h.acquire hf (fun j => by rw [hpc]; simp only [PC.holds, List.count_cons, List.count_nil, beq_iff_eq]; grind) h3
  · rename_i hf; exact h.acquire hf (fun j => by rw [hpc]; exact count2 _ _ _ _) h3
  · exact h.setPc (fun j => by rw [hpc]; rfl) h3
  · exact h.unlock (fun j => by rw [hpc]; simp only [PC.holds, List.count_cons, List.count_nil, beq_iff_eq]; grind) h3
  · exact h.setPc (fun j => by rw [hpc]; rfl) trivial
  · exact (h.val _).setPc (fun j => by rw [hpc]; rfl) trivial
  · exact h.setPc (fun j => by rw [hpc]; rfl) trivial
  · exact h.setPc (fun j => by rw [hpc]; rfl) trivial
  · exact h.setPc (fun j => by rw [hpc]; rfl) trivial
  · exact (h.val _).setPc (fun j => by rw [hpc]; rfl) trivial
  · exact (h.val _).setPc (fun j => by rw [hpc]; rfl) trivial
  · exact h.setPc (fun j => by rw [hpc]; simp only [PC.holds, List.count_cons, List.count_nil, beq_iff_eq]; grind) trivial
  · exact absurd rfl (h3 _)
  · exact h.setPc (fun j => by rw [hpc]; rfl) trivial
  · exact h.unlock (fun j => by rw [hpc]; simp only [PC.holds, List.count_cons, beq_iff_eq]; grind) trivial

theorem Inv.step {r : Bool} {s s' : State} {l : Label} {es : List Event} (h : Inv s) (hs : step r false s l = some (s', es)) : Inv s' := by
  cases l with
  | call t c =>
    simp only [SyncValue.step] at hs
    split at hs
    · rename_i hi; exact h.call hi hs
    · cases hs
  | go t => exact h.go hs
  | read t k =>
    simp only [SyncValue.step] at hs
    (repeat' split at hs) <;> simp only [Option.some.injEq, Prod.mk.injEq, reduceCtorEq] at hs
    obtain ⟨rfl, _⟩ := hs
    exact h
  | write t k v =>
    simp only [SyncValue.step] at hs
    (repeat' split at hs) <;> simp only [Option.some.injEq, Prod.mk.injEq, reduceCtorEq] at hs
    obtain ⟨rfl, _⟩ := hs
    exact h.val _
  | leave t =>
    simp only [SyncValue.step] at hs
    split at hs <;> simp only [Option.some.injEq, Prod.mk.injEq, reduceCtorEq] at hs
    rename_i hpc
    obtain ⟨rfl, _⟩ := hs
    exact h.setPc (fun j => by rw [hpc]; simp [PC.holds]) trivial

end Verif.SyncValue
