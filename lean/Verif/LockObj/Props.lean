import Verif.LockObj.Lemmas
/-! # Property C15: lock objects track ownership exactly -/

set_option linter.unusedSimpArgs false

namespace Verif.LockObj

/-- **C15.** In every history no acquisition is released, converted or handed out twice, and no mutex operation goes through a null pointer. -/
theorem no_double_release {ls : List Label} {s : State} {es : List Event} (h : run step init ls = some (s, es)) : Accepts specNext [] es :=
  simulation R R_step R_init h

/-- **C15.** At any time, for every mutex and mode, the number of acquisitions in the care of lock objects - acquired or adopted and not yet released or handed
out - equals the number of lock objects that report `owns_lock()` for it. -/
theorem owns_lock_is_exact {ls : List Label} {s : State} {es : List Event} {l : Ledger} (h : run step init ls = some (s, es))
    (hl : specState specNext [] es = some l) (x : Nat × Kind) : l.count x = claimants s x :=
  (simulation_state R R_step R_init h hl).1 x

/-- **C15.** Once every lock object is destroyed nothing is left locked by one. -/
theorem nothing_left_locked {ls : List Label} {s : State} {es : List Event} {l : Ledger} (h : run step init ls = some (s, es))
    (hl : specState specNext [] es = some l) (h0 : ∀ o, getO s o = none) (h1 : ∀ u, getU s u = none) : l = [] := by
  have hb := (simulation_state R R_step R_init h hl).1
  rw [List.eq_nil_iff_forall_not_mem]
  intro x hx
  rw [← List.count_pos_iff, hb x] at hx
  simp only [n] at hx
  rcases Nat.eq_zero_or_pos (cnt (claims x) s.objs) with hz | hp
  · rw [hz, Nat.zero_add] at hx
    obtain ⟨u, p, hu, hp⟩ := exists_of_cnt_pos hx
    cases p with
    | none => simp [claimsUp] at hp
    | some y => have := h1 u; simp [getU, hu] at this
  · obtain ⟨o, p, ho, hp⟩ := exists_of_cnt_pos hp
    cases p with
    | none => simp [claims] at hp
    | some y => have := h0 o; simp [getO, ho] at this

/-- An object that owns has a mutex. -/
theorem owner_has_mutex {ls : List Label} {s : State} {es : List Event} (h : run step init ls = some (s, es)) {o : Nat} {k : Kind} {m : Option Nat}
    (hd : Accepts specNext [] es ∧ (specState specNext [] es).isSome) (hs : see s o = some (k, m, true)) : m.isSome := by
  obtain ⟨l, hl⟩ := Option.isSome_iff_exists.mp hd.2
  have w := (simulation_state R R_step R_init h hl).2
  simp only [see, Option.map_eq_some_iff, Prod.mk.injEq] at hs
  obtain ⟨a, ha, _, hm, ho⟩ := hs
  rw [← hm]
  exact w.objs _ _ ha ho

/-! ## The single operations, for every state -/

theorem see_iff {s : State} {o : Nat} {k : Kind} {m : Option Nat} {b : Bool} : see s o = some (k, m, b) ↔ getO s o = some ⟨k, m, b⟩ := by
  simp only [see, Option.map_eq_some_iff]
  constructor
  · rintro ⟨⟨_, _, _⟩, h, e⟩; cases e; exact h
  · intro h; exact ⟨_, h, rfl⟩

theorem see_setO {s : State} {o o' : Nat} {a b : Obj} (h : getO s o = some a) :
    see (setO s o b) o' = if o = o' then some (b.kind, b.m, b.owned) else see s o' := by
  simp only [see, getO_setO h]; split <;> rfl

/-- **C15.** `lock()` and `try_lock()` of an object that owns, or has no mutex, raise `lock_error`, and `unlock()` of one that does not own; nothing changes and no
mutex is touched. -/
theorem misuse_raises_lock_error (s : State) (o : Nat) (k : Kind) (m : Nat) (ok : Bool) (r : TryResult) :
    (see s o = some (k, some m, true) → step s (.lock o ok) = some (s, [.lockError o .already]) ∧ step s (.tryLock o r) = some (s, [.lockError o .already])) ∧
    (see s o = some (k, some m, false) → step s (.unlock o ok) = some (s, [.lockError o .notOwner])) ∧
    (∀ b, see s o = some (k, none, b) → step s (.lock o ok) = some (s, [.lockError o .noMutex]) ∧ step s (.tryLock o r) = some (s, [.lockError o .noMutex]) ∧
      step s (.unlock o ok) = some (s, [.lockError o .noMutex])) := by
  refine ⟨?_, ?_, ?_⟩
  · intro h; rw [see_iff] at h; simp [step, h]
  · intro h; rw [see_iff] at h; simp [step, h]
  · intro b h; rw [see_iff] at h; simp [step, h]

/-- **C15.** Otherwise `lock()` and `try_lock()` own exactly if the mutex was acquired, and `unlock()` releases it. -/
theorem lock_and_unlock (s : State) (o : Nat) (k : Kind) (m : Nat) :
    (see s o = some (k, some m, false) →
      (∃ s', step s (.lock o true) = some (s', [.acquired m k]) ∧ see s' o = some (k, some m, true)) ∧
      (∃ s', step s (.tryLock o .yes) = some (s', [.acquired m k, .tried o true]) ∧ see s' o = some (k, some m, true)) ∧
      (∃ s', step s (.tryLock o .no) = some (s', [.tried o false]) ∧ see s' o = some (k, some m, false)) ∧
      step s (.lock o false) = some (s, [.threw]) ∧ step s (.tryLock o .throws) = some (s, [.threw])) ∧
    (see s o = some (k, some m, true) →
      (∃ s', step s (.unlock o true) = some (s', [.released m k]) ∧ see s' o = some (k, some m, false)) ∧ step s (.unlock o false) = some (s, [.threw])) := by
  refine ⟨?_, ?_⟩
  · intro h; rw [see_iff] at h
    simp [step, h, see_setO h]
  · intro h; rw [see_iff] at h
    simp [step, h, see_setO h]

/-- **C15.** Move construction transfers mutex and ownership, touches no mutex and no other object. -/
theorem move_transfers {s s' : State} {src : Nat} {es : List Event} {k : Kind} {m : Option Nat} {b : Bool} (hs : see s src = some (k, m, b))
    (h : step s (.move src) = some (s', es)) :
    es = [] ∧ see s' src = some (k, none, false) ∧ see s' s.objs.length = some (k, m, b) ∧
    ∀ o, o ≠ src → o ≠ s.objs.length → see s' o = see s o := by
  rw [see_iff] at hs
  have hlt : src < s.objs.length := (List.getElem?_eq_some_iff.mp (getO_iff.mp hs)).1
  simp only [step, hs, Option.bind_eq_bind, Option.bind_some, Option.some.injEq, Prod.mk.injEq] at h
  obtain ⟨rfl, rfl⟩ := h
  refine ⟨rfl, ?_, ?_, ?_⟩
  · simp only [see, getO_addO, len_setO]; rw [if_neg (by omega), getO_setO hs, if_pos rfl]; rfl
  · simp only [see, getO_addO, len_setO, if_true]; rfl
  · intro o h1 h2
    simp only [see, getO_addO, len_setO]; rw [if_neg h2, getO_setO hs, if_neg (Ne.symm h1)]

/-- **C15.** Move assignment releases what the target owned, exactly once, and transfers the source's mutex and ownership; assigning an object to itself changes
nothing. -/
theorem assign_transfers {s s' : State} {dst src : Nat} {es : List Event} {k k' : Kind} {m m' : Option Nat} {b b' : Bool}
    (hd : see s dst = some (k', m', b')) (hs : see s src = some (k, m, b)) (h : step s (.assign dst src) = some (s', es)) :
    see s' dst = some (k, m, b) ∧ (∀ o, o ≠ src → o ≠ dst → see s' o = see s o) ∧
    (dst ≠ src → see s' src = some (k, none, false) ∧ (∀ x, m' = some x → es = if b' then [.released x k] else [])) ∧
    (dst = src → es = []) := by
  rw [see_iff] at hs hd
  simp only [step, hs, Option.bind_eq_bind, Option.bind_some, getO_setO hs] at h
  by_cases he : src = dst
  · subst he
    rw [hs] at hd; cases hd
    simp only [if_true, Option.bind_some, Obj.moveFrom] at h
    simp only [assignTemp, Obj.swap, Option.some.injEq, Prod.mk.injEq] at h
    obtain ⟨rfl, rfl⟩ := h
    refine ⟨?_, ?_, by simp, fun _ => rfl⟩
    · rw [see_setO (by rw [getO_setO hs, if_pos rfl]), if_pos rfl]
    · intro o h1 _
      rw [see_setO (by rw [getO_setO hs, if_pos rfl]), if_neg (Ne.symm h1), see_setO hs, if_neg (Ne.symm h1)]
  · simp only [if_neg he, hd, Option.bind_some] at h
    split at h
    · next hk =>
      subst hk
      simp only [assignTemp, Obj.swap, Obj.moveFrom, Option.some.injEq, Prod.mk.injEq] at h
      obtain ⟨rfl, rfl⟩ := h
      have hd' : getO (setO s src ⟨k', none, false⟩) dst = some ⟨k', m', b'⟩ := by rw [getO_setO hs, if_neg he]; exact hd
      refine ⟨?_, ?_, ?_, fun e => absurd e.symm he⟩
      · rw [see_setO hd', if_pos rfl]
      · intro o h1 h2; rw [see_setO hd', if_neg (Ne.symm h2), see_setO hs, if_neg (Ne.symm h1)]
      · intro _
        refine ⟨by rw [see_setO hd', if_neg (Ne.symm he), see_setO hs, if_pos rfl], ?_⟩
        rintro x rfl
        simp [Obj.dtor]
    · cases h

/-- **C15.** `swap` exchanges mutex and ownership and touches no mutex. -/
theorem swap_exchanges {s s' : State} {x y : Nat} {es : List Event} {k k' : Kind} {m m' : Option Nat} {b b' : Bool}
    (hx : see s x = some (k, m, b)) (hy : see s y = some (k', m', b')) (h : step s (.swap x y) = some (s', es)) :
    es = [] ∧ see s' x = some (k, m', b') ∧ see s' y = some (k', m, b) ∧ ∀ o, o ≠ x → o ≠ y → see s' o = see s o := by
  have hx0 := hx
  have hy0 := hy
  rw [see_iff] at hx hy
  simp only [step, hx, hy, Option.bind_eq_bind, Option.bind_some] at h
  split at h
  · next hk =>
    split at h
    · next e =>
      subst e
      rw [hx] at hy; cases hy
      cases h
      exact ⟨rfl, hx0, hx0, fun _ _ _ => rfl⟩
    · next e =>
      simp only [Obj.swap, Option.some.injEq, Prod.mk.injEq] at h
      obtain ⟨rfl, rfl⟩ := h
      have hy' : ∀ a, getO (setO s x a) y = some ⟨k', m', b'⟩ := fun a => by rw [getO_setO hx, if_neg e]; exact hy
      refine ⟨rfl, ?_, ?_, ?_⟩
      · rw [see_setO (hy' _), if_neg (Ne.symm e), see_setO hx, if_pos rfl]
      · rw [see_setO (hy' _), if_pos rfl]
      · intro o h1 h2; rw [see_setO (hy' _), if_neg (Ne.symm h2), see_setO hx, if_neg (Ne.symm h1)]
  · cases h

/-- **C15.** `release()` returns the mutex, hands the acquisition to the caller if there is one, and leaves the object without mutex; it does not unlock. -/
theorem release_hands_out (s : State) (o : Nat) (k : Kind) (m : Nat) (b : Bool) (h : see s o = some (k, some m, b)) :
    ∃ s', step s (.release o) = some (s', if b then [.handedOut m k, .releasedPtr o (some m)] else [.releasedPtr o (some m)]) ∧
      see s' o = some (k, none, false) := by
  rw [see_iff] at h
  cases b <;> simp [step, h, see_setO h, Obj.release]

/-- **C15.** The destructor releases what the object owns, exactly once. -/
theorem destroy_releases (s : State) (o : Nat) (k : Kind) (m : Nat) (b : Bool) (h : see s o = some (k, some m, b)) :
    ∃ s', step s (.destroy o) = some (s', if b then [.released m k] else []) ∧ see s' o = none := by
  rw [see_iff] at h
  have hlt : o < s.objs.length := (List.getElem?_eq_some_iff.mp (getO_iff.mp h)).1
  refine ⟨{ s with objs := s.objs.set o none }, ?_, by simp [see, getO, hlt]⟩
  cases b <;> simp [step, h, Obj.dtor]

/-- **C15.** A conversion that fails (`try_to_lock`) or throws leaves the source with what it had. -/
theorem failed_conversion_keeps_source {s s' : State} {src : Nat} {k k' : Kind} {m : Nat} {es : List Event} (h : see s src = some (k, some m, true)) :
    (∀ r, r ≠ .yes → step s (.tryConvert src k' r) = some (s', es) → see s' src = some (k, some m, true) ∧ ∀ e ∈ es, e = .threw) ∧
    (step s (.convert src k' false) = some (s', es) → see s' src = some (k, some m, true) ∧ ∀ e ∈ es, e = .threw) := by
  rw [see_iff] at h
  have hlt : src < s.objs.length := (List.getElem?_eq_some_iff.mp (getO_iff.mp h)).1
  refine ⟨?_, ?_⟩
  · intro r hr hst
    simp only [step, h, Option.bind_eq_bind, Option.bind_some] at hst
    split at hst
    · simp only [Obj.tryConvertFrom, if_true] at hst
      cases r with
      | yes => exact absurd rfl hr
      | no =>
        cases hst
        refine ⟨?_, by simp⟩
        simp only [see, getO_addO, len_setO]; rw [if_neg (by omega), getO_setO h, if_pos rfl]; rfl
      | throws => cases hst; exact ⟨by rw [see_setO h, if_pos rfl], by simp⟩
    · cases hst
  · intro hst
    simp only [step, h, Option.bind_eq_bind, Option.bind_some] at hst
    split at hst
    · simp only [Obj.convertFrom, if_true] at hst
      cases hst; exact ⟨by rw [see_setO h, if_pos rfl], by simp⟩
    · cases hst

/-- **C15.** A successful conversion moves the acquisition to the new object in the new mode. -/
theorem conversion_transfers {s s' : State} {src : Nat} {k k' : Kind} {m : Nat} {es : List Event} (h : see s src = some (k, some m, true))
    (hst : step s (.convert src k' true) = some (s', es) ∨ step s (.tryConvert src k' .yes) = some (s', es)) :
    es = [.converted m k k'] ∧ see s' src = some (k, none, false) ∧ see s' s.objs.length = some (k', some m, true) := by
  rw [see_iff] at h
  have hlt : src < s.objs.length := (List.getElem?_eq_some_iff.mp (getO_iff.mp h)).1
  have key : ∀ a b, see (addO (setO s src a) b) src = some (a.kind, a.m, a.owned) ∧ see (addO (setO s src a) b) s.objs.length = some (b.kind, b.m, b.owned) := by
    intro a b
    constructor
    · simp only [see, getO_addO, len_setO]; rw [if_neg (by omega), getO_setO h, if_pos rfl]; rfl
    · simp only [see, getO_addO, len_setO, if_true]; rfl
  rcases hst with hst | hst
  · simp only [step, h, Option.bind_eq_bind, Option.bind_some] at hst
    split at hst
    · simp only [Obj.convertFrom, if_true, Option.some.injEq, Prod.mk.injEq] at hst
      obtain ⟨rfl, rfl⟩ := hst
      exact ⟨rfl, (key _ _).1, (key _ _).2⟩
    · cases hst
  · simp only [step, h, Option.bind_eq_bind, Option.bind_some] at hst
    split at hst
    · simp only [Obj.tryConvertFrom, if_true, Option.some.injEq, Prod.mk.injEq] at hst
      obtain ⟨rfl, rfl⟩ := hst
      exact ⟨rfl, (key _ _).1, (key _ _).2⟩
    · cases hst

/-- **C15.** Which conversions there are: without trying from upgrade to unique and shared and from unique to upgrade and shared, with trying from upgrade and shared to unique and
from shared to upgrade. -/
theorem conversions_exist (s : State) (src : Nat) (k k' : Kind) (m : Option Nat) (b : Bool) (h : see s src = some (k, m, b)) (ok : Bool) (r : TryResult) :
    ((∃ x, step s (.convert src k' ok) = some x) ↔ (k, k') ∈ [(Kind.upgrade, Kind.unique), (.upgrade, .shared), (.unique, .upgrade), (.unique, .shared)]) ∧
      ((∃ x, step s (.tryConvert src k' r) = some x) ↔ (k, k') ∈ [(Kind.upgrade, Kind.unique), (.shared, .unique), (.shared, .upgrade)]) := by
  have h' := see_iff.1 h
  constructor
  · have : (∃ x, step s (.convert src k' ok) = some x) ↔ canConvert k k' = true := by
      simp only [step, h', Option.bind_eq_bind, Option.bind_some]
      by_cases hc : canConvert k k' = true
      · simp only [hc, if_true, iff_true]
        split <;> exact ⟨_, rfl⟩
      · simp [hc]
    rw [this]; cases k <;> cases k' <;> simp [canConvert]
  · have : (∃ x, step s (.tryConvert src k' r) = some x) ↔ canTryConvert k k' = true := by
      simp only [step, h', Option.bind_eq_bind, Option.bind_some]
      by_cases hc : canTryConvert k k' = true
      · simp only [hc, if_true, iff_true]
        split <;> exact ⟨_, rfl⟩
      · simp [hc]
    rw [this]; cases k <;> cases k' <;> simp [canTryConvert]

/-- **C15.** `upgrade_to_unique_lock` makes the ownership exclusive while it lives and gives it back to the `upgrade_lock` it came from. -/
theorem upgrade_to_unique_round_trip (s : State) (src : Nat) (m : Nat) (h : see s src = some (.upgrade, some m, true)) :
    ∃ s1 s2, step s (.upCtor src true) = some (s1, [.converted m .upgrade .unique]) ∧
      seeUp s1 s.ups.length = some (some m, true) ∧ see s1 src = some (.upgrade, none, false) ∧
      step s1 (.upDestroy s.ups.length) = some (s2, [.converted m .unique .upgrade]) ∧
      seeUp s2 s.ups.length = none ∧ see s2 src = some (.upgrade, some m, true) := by
  rw [see_iff] at h
  refine ⟨addU (setO s src ⟨.upgrade, none, false⟩) ⟨some src, ⟨.unique, some m, true⟩⟩, ?_⟩
  have hu : getU (addU (setO s src ⟨.upgrade, none, false⟩) ⟨some src, ⟨.unique, some m, true⟩⟩) s.ups.length = some ⟨some src, ⟨.unique, some m, true⟩⟩ := by
    rw [getU_addU, if_pos (by rfl)]
  have ho : getO (addU (setO s src ⟨.upgrade, none, false⟩) ⟨some src, ⟨.unique, some m, true⟩⟩) src = some ⟨.upgrade, none, false⟩ := by
    rw [getO_addU, getO_setO h, if_pos rfl]
  have hst : ∃ s2, step (addU (setO s src ⟨.upgrade, none, false⟩) ⟨some src, ⟨.unique, some m, true⟩⟩) (.upDestroy s.ups.length) =
      some (s2, [.converted m .unique .upgrade]) ∧ seeUp s2 s.ups.length = none ∧ see s2 src = some (.upgrade, some m, true) := by
    simp only [step, hu, Option.bind_eq_bind, Option.bind_some, upDtor]
    rw [show ∀ (q : State), getO { q with ups := q.ups.set s.ups.length none } src = getO q src from fun _ => rfl, ho]
    simp only [Obj.convertFrom, if_true, assignTemp, Obj.swap, Obj.dtor, Bool.false_eq_true, if_false, List.append_nil]
    refine ⟨_, rfl, ?_, ?_⟩
    · simp [seeUp, getU, setO, addU]
    · rw [see_setO (a := ⟨.upgrade, none, false⟩) (by exact ho), if_pos rfl]
  obtain ⟨s2, h1, h2, h3⟩ := hst
  refine ⟨s2, ?_, ?_, ?_, h1, h2, h3⟩
  · simp [step, h, Obj.convertFrom]
  · simp only [seeUp, hu]; rfl
  · rw [see_iff]; exact ho

/-! ## Non-vacuity -/

/-- Two objects, a throwing mutex, a move, an assignment over an owner, `release`, an adoption, a conversion and its way back. -/
def script : List Label :=
  [.ctorLock .unique 7 true, .ctorLock .unique 8 true, .ctorLock .unique 8 false, .move 0, .assign 1 2, .release 1, .ctorAdopt .upgrade 7, .lock 3 true,
   .upCtor 3 true, .upDestroy 0, .destroy 0, .destroy 1, .destroy 2, .owns 3]

example : ∃ s, run step init script = some (s, [.acquired 7 .unique, .acquired 8 .unique, .threw, .released 8 .unique, .handedOut 7 .unique,
    .releasedPtr 1 (some 7), .adopted 7 .upgrade, .lockError 3 .already, .converted 7 .upgrade .unique, .converted 7 .unique .upgrade, .ownsIs 3 true]) ∧
    see s 3 = some (.upgrade, some 7, true) ∧ claimants s (7, .upgrade) = 1 ∧ claimants s (8, .unique) = 0 := ⟨_, rfl, by decide, by decide, by decide⟩

example : ∃ s es, run step init (script ++ [.destroy 3]) = some (s, es) ∧ specState specNext [] es = some [] := ⟨_, _, rfl, by decide⟩

end Verif.LockObj
