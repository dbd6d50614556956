import Verif.LockObj.Spec
/-! # Accounting -/

set_option linter.unusedSimpArgs false

namespace Verif.LockObj

/-! ## Well-formedness -/

def Obj.Ok (a : Obj) : Prop := a.owned = true → a.m.isSome = true

structure WF (s : State) : Prop where
  objs : ∀ o a, getO s o = some a → a.Ok
  ups : ∀ u x, getU s u = some x → x.ex.Ok ∧ x.ex.kind = .unique
  src : ∀ u x o, getU s u = some x → x.source = some o → o < s.objs.length ∧ ∀ a, getO s o = some a → a.kind = .upgrade

theorem getO_iff {s : State} {o : Nat} {a : Obj} : getO s o = some a ↔ s.objs[o]? = some (some a) := by
  simp [getO, Option.join_eq_some_iff]

theorem getU_iff {s : State} {u : Nat} {x : Up} : getU s u = some x ↔ s.ups[u]? = some (some x) := by
  simp [getU, Option.join_eq_some_iff]

theorem getO_setO {s : State} {o o' : Nat} {a b : Obj} (h : getO s o = some a) :
    getO (setO s o b) o' = if o = o' then some b else getO s o' := by
  rw [getO_iff] at h
  have hl : o < s.objs.length := (List.getElem?_eq_some_iff.mp h).1
  simp only [getO, setO, List.getElem?_set]
  split
  · next e => subst e; simp [hl]
  · rfl

theorem getU_setU {s : State} {o o' : Nat} {a b : Up} (h : getU s o = some a) :
    getU (setU s o b) o' = if o = o' then some b else getU s o' := by
  rw [getU_iff] at h
  have hl : o < s.ups.length := (List.getElem?_eq_some_iff.mp h).1
  simp only [getU, setU, List.getElem?_set]
  split
  · next e => subst e; simp [hl]
  · rfl

@[simp] theorem getU_setO {s : State} {o u : Nat} {b : Obj} : getU (setO s o b) u = getU s u := rfl
@[simp] theorem getO_setU {s : State} {o u : Nat} {b : Up} : getO (setU s u b) o = getO s o := rfl
@[simp] theorem getU_addO {s : State} {u : Nat} {b : Obj} : getU (addO s b) u = getU s u := rfl
@[simp] theorem getO_addU {s : State} {o : Nat} {b : Up} : getO (addU s b) o = getO s o := rfl
@[simp] theorem len_setO {s : State} {o : Nat} {b : Obj} : (setO s o b).objs.length = s.objs.length := by simp [setO]
@[simp] theorem len_setU {s : State} {o : Nat} {b : Up} : (setU s o b).objs.length = s.objs.length := rfl
@[simp] theorem len_addU {s : State} {b : Up} : (addU s b).objs.length = s.objs.length := rfl

theorem getO_addO {s : State} {o : Nat} {b : Obj} : getO (addO s b) o = if o = s.objs.length then some b else getO s o := by
  simp only [getO, addO, List.getElem?_append]
  split
  · next h => rw [if_neg (by omega)]
  · next h =>
    split
    · next e => subst e; simp
    · next e =>
      have h1 : ¬ o < s.objs.length := h
      rw [List.getElem?_eq_none (l := s.objs) (by omega)]
      rw [List.getElem?_eq_none (by simp; omega)]

theorem getU_addU {s : State} {o : Nat} {b : Up} : getU (addU s b) o = if o = s.ups.length then some b else getU s o := by
  simp only [getU, addU, List.getElem?_append]
  split
  · next h => rw [if_neg (by omega)]
  · next h =>
    split
    · next e => subst e; simp
    · next e =>
      have h1 : ¬ o < s.ups.length := h
      rw [List.getElem?_eq_none (l := s.ups) (by omega)]
      rw [List.getElem?_eq_none (by simp; omega)]

theorem WF.setO {s : State} (w : WF s) {o : Nat} {a b : Obj} (h : getO s o = some a) (hb : b.Ok) (hk : b.kind = a.kind) : WF (setO s o b) := by
  refine ⟨?_, ?_, ?_⟩
  · intro o' a' h'
    rw [getO_setO h] at h'
    split at h'
    · cases h'; exact hb
    · exact w.objs _ _ h'
  · intro u x h'; exact w.ups u x h'
  · intro u x o' h' hs
    have := w.src u x o' h' hs
    refine ⟨by simpa using this.1, ?_⟩
    intro a' ha'
    rw [getO_setO h] at ha'
    split at ha'
    · next e => subst e; cases ha'; rw [hk]; exact this.2 _ h
    · exact this.2 _ ha'

theorem WF.addO {s : State} (w : WF s) {b : Obj} (hb : b.Ok) : WF (addO s b) := by
  refine ⟨?_, ?_, ?_⟩
  · intro o' a' h'
    rw [getO_addO] at h'
    split at h'
    · cases h'; exact hb
    · exact w.objs _ _ h'
  · intro u x h'; exact w.ups u x h'
  · intro u x o' h' hs
    have := w.src u x o' h' hs
    refine ⟨by simp [LockObj.addO]; omega, ?_⟩
    intro a' ha'
    rw [getO_addO] at ha'
    rw [if_neg (by omega)] at ha'
    exact this.2 _ ha'

theorem WF.killO {s : State} (w : WF s) (o : Nat) : WF { s with objs := s.objs.set o none } := by
  have key : ∀ o' a', getO { s with objs := s.objs.set o none } o' = some a' → getO s o' = some a' := by
    intro o' a' h'
    simp only [getO, List.getElem?_set] at h' ⊢
    split at h'
    · split at h' <;> simp at h'
    · exact h'
  refine ⟨fun o' a' h' => w.objs _ _ (key _ _ h'), fun u x h' => w.ups u x h', ?_⟩
  intro u x o' h' hs
  have := w.src u x o' h' hs
  exact ⟨by simpa using this.1, fun a' ha' => this.2 _ (key _ _ ha')⟩

/-- A `source` is an `upgrade_lock`. -/
def SrcOk (s : State) (src : Option Nat) : Prop := ∀ o, src = some o → o < s.objs.length ∧ ∀ a, getO s o = some a → a.kind = .upgrade

theorem WF.setU {s : State} (w : WF s) {u : Nat} {x y : Up} (h : getU s u = some x) (hy : y.ex.Ok) (hk : y.ex.kind = .unique)
    (hs : SrcOk s y.source) : WF (setU s u y) := by
  refine ⟨fun o' a' h' => w.objs _ _ h', ?_, ?_⟩
  · intro u' x' h'
    rw [getU_setU h] at h'
    split at h'
    · cases h'; exact ⟨hy, hk⟩
    · exact w.ups _ _ h'
  · intro u' x' o' h' hs'
    rw [getU_setU h] at h'
    split at h'
    · cases h'; exact hs o' hs'
    · exact w.src _ _ _ h' hs'

theorem WF.addU {s : State} (w : WF s) {y : Up} (hy : y.ex.Ok) (hk : y.ex.kind = .unique) (hs : SrcOk s y.source) : WF (addU s y) := by
  refine ⟨fun o' a' h' => w.objs _ _ h', ?_, ?_⟩
  · intro u' x' h'
    rw [getU_addU] at h'
    split at h'
    · cases h'; exact ⟨hy, hk⟩
    · exact w.ups _ _ h'
  · intro u' x' o' h' hs'
    rw [getU_addU] at h'
    split at h'
    · cases h'; exact hs o' hs'
    · exact w.src _ _ _ h' hs'

theorem WF.killU {s : State} (w : WF s) (u : Nat) : WF { s with ups := s.ups.set u none } := by
  have key : ∀ o' a', getU { s with ups := s.ups.set u none } o' = some a' → getU s o' = some a' := by
    intro o' a' h'
    simp only [getU, List.getElem?_set] at h' ⊢
    split at h'
    · split at h' <;> simp at h'
    · exact h'
  exact ⟨fun o' a' h' => w.objs _ _ h', fun u x h' => w.ups u x (key _ _ h'), fun u x o' h' hs => w.src u x o' (key _ _ h') hs⟩

theorem Obj.Ok.of_not_owned {a : Obj} (h : a.owned = false) : a.Ok := by intro h'; rw [h] at h'; cases h'
theorem Obj.Ok.of_some {a : Obj} (h : a.m.isSome = true) : a.Ok := fun _ => h

/-! ## Counting -/

/-- Objects, `upgrade_to_unique_lock`s and a temporary. -/
def n (s : State) (x : Nat × Kind) : Nat := cnt (claims x) s.objs + cnt (claimsUp x) s.ups

def c (a : Obj) (x : Nat × Kind) : Nat := b2n (claims x (some a))

theorem n_eq (s : State) (x : Nat × Kind) : claimants s x = n s x := rfl

theorem c_none {a : Obj} (h : a.owned = false) (x : Nat × Kind) : c a x = 0 := by simp [c, claims, h]

theorem c_own {a : Obj} {m : Nat} (h : a.owned = true) (hm : a.m = some m) (x : Nat × Kind) : c a x = if (m, a.kind) == x then 1 else 0 := by
  simp only [c, claims, h, hm, Bool.true_and, b2n]
  congr 1

theorem c_congr {a b : Obj} (hk : a.kind = b.kind) (hm : a.m = b.m) (ho : a.owned = b.owned) (x : Nat × Kind) : c a x = c b x := by
  simp [c, claims, hk, hm, ho]

theorem n_setO {s : State} {o : Nat} {a : Obj} (h : getO s o = some a) (b : Obj) (x : Nat × Kind) : n (setO s o b) x + c a x = n s x + c b x := by
  have := cnt_set (claims x) (some b) (getO_iff.mp h)
  simp only [n, setO, c] at *; omega

theorem n_killO {s : State} {o : Nat} {a : Obj} (h : getO s o = some a) (x : Nat × Kind) : n { s with objs := s.objs.set o none } x + c a x = n s x := by
  have := cnt_set (claims x) none (getO_iff.mp h)
  simp only [n, c, claims, b2n_false] at *; omega

theorem n_setU {s : State} {o : Nat} {a : Up} (h : getU s o = some a) (b : Up) (x : Nat × Kind) :
    n (setU s o b) x + c a.ex x = n s x + c b.ex x := by
  have := cnt_set (claimsUp x) (some b) (getU_iff.mp h)
  simp only [n, setU, c, claimsUp] at *; omega

theorem n_killU {s : State} {o : Nat} {a : Up} (h : getU s o = some a) (x : Nat × Kind) : n { s with ups := s.ups.set o none } x + c a.ex x = n s x := by
  have := cnt_set (claimsUp x) none (getU_iff.mp h)
  simp only [n, c, claimsUp, b2n_false] at *; omega

theorem n_addO (s : State) (b : Obj) (x : Nat × Kind) : n (addO s b) x = n s x + c b x := by
  have : cnt (claims x) (s.objs ++ [some b]) = cnt (claims x) s.objs + b2n (claims x (some b)) := by
    simp [cnt, List.countP_append, b2n]
  simp only [n, addO, c, this]; omega

theorem n_addU (s : State) (b : Up) (x : Nat × Kind) : n (addU s b) x = n s x + c b.ex x := by
  have : cnt (claimsUp x) (s.ups ++ [some b]) = cnt (claimsUp x) s.ups + b2n (claimsUp x (some b)) := by
    simp [cnt, List.countP_append, b2n]
  simp only [n, addU, c, this, claimsUp]; omega

/-! ## The ledger -/

/-- The ledger has `f x` entries for `x`. -/
def Bal (f : Nat × Kind → Nat) (l : Ledger) : Prop := ∀ x, l.count x = f x

theorem follows_nil {f g : Nat × Kind → Nat} {l : Ledger} (h : Bal f l) (hg : ∀ x, g x = f x) : Follows specNext (Bal g) l [] :=
  fun x => by rw [h x, hg x]

theorem follows_acq {f g : Nat × Kind → Nat} {l : Ledger} {m : Nat} {k : Kind} {es : List Event} (h : Bal f l)
    (hes : ∀ l', Bal (fun x => f x + if (m, k) == x then 1 else 0) l' → Follows specNext (Bal g) l' es) :
    Follows specNext (Bal g) l (.acquired m k :: es) := by
  simp only [Follows, specNext]
  apply hes
  intro x
  rw [List.count_cons, h x]

theorem follows_adopt {f g : Nat × Kind → Nat} {l : Ledger} {m : Nat} {k : Kind} {es : List Event} (h : Bal f l)
    (hes : ∀ l', Bal (fun x => f x + if (m, k) == x then 1 else 0) l' → Follows specNext (Bal g) l' es) :
    Follows specNext (Bal g) l (.adopted m k :: es) := by
  simp only [Follows, specNext]
  apply hes
  intro x
  rw [List.count_cons, h x]

theorem erase_bal {f : Nat × Kind → Nat} {l : Ledger} {y : Nat × Kind} (h : Bal (fun x => f x + if y == x then 1 else 0) l) :
    y ∈ l ∧ Bal f (l.erase y) := by
  constructor
  · rw [← List.count_pos_iff, h y]; simp
  · intro x
    rw [List.count_erase, h x]
    show f x + (if y == x then 1 else 0) - (if y == x then 1 else 0) = f x
    omega

theorem follows_rel {f g : Nat × Kind → Nat} {l : Ledger} {m : Nat} {k : Kind} {es : List Event}
    (h : Bal (fun x => f x + if (m, k) == x then 1 else 0) l) (hes : ∀ l', Bal f l' → Follows specNext (Bal g) l' es) :
    Follows specNext (Bal g) l (.released m k :: es) := by
  obtain ⟨h1, h2⟩ := erase_bal h
  simp only [Follows, specNext, h1, if_true]
  exact hes _ h2

theorem follows_hand {f g : Nat × Kind → Nat} {l : Ledger} {m : Nat} {k : Kind} {es : List Event}
    (h : Bal (fun x => f x + if (m, k) == x then 1 else 0) l) (hes : ∀ l', Bal f l' → Follows specNext (Bal g) l' es) :
    Follows specNext (Bal g) l (.handedOut m k :: es) := by
  obtain ⟨h1, h2⟩ := erase_bal h
  simp only [Follows, specNext, h1, if_true]
  exact hes _ h2

theorem follows_conv {f g : Nat × Kind → Nat} {l : Ledger} {m : Nat} {k k' : Kind} {es : List Event}
    (h : Bal (fun x => f x + if (m, k) == x then 1 else 0) l)
    (hes : ∀ l', Bal (fun x => f x + if (m, k') == x then 1 else 0) l' → Follows specNext (Bal g) l' es) :
    Follows specNext (Bal g) l (.converted m k k' :: es) := by
  obtain ⟨h1, h2⟩ := erase_bal h
  simp only [Follows, specNext, h1, if_true]
  apply hes
  intro x
  rw [List.count_cons, h2 x]

theorem Bal.congr {f g : Nat × Kind → Nat} {l : Ledger} (h : Bal f l) (hg : ∀ x, f x = g x) : Bal g l := fun x => by rw [h x, hg x]

/-- Destroying an object releases exactly what it claims. -/
theorem follows_dtor {f g : Nat × Kind → Nat} {l : Ledger} {a : Obj} {es : List Event} (ha : a.Ok) (h : Bal (fun x => f x + c a x) l)
    (hes : ∀ l', Bal f l' → Follows specNext (Bal g) l' es) : Follows specNext (Bal g) l (a.dtor ++ es) := by
  simp only [Obj.dtor]
  split
  · next ho =>
    have := ha ho
    cases hm : a.m with
    | none => rw [hm] at this; cases this
    | some m =>
      simp only [List.cons_append, List.nil_append]
      exact follows_rel (h.congr fun x => by rw [c_own ho hm]) hes
  · next ho =>
    simp only [List.nil_append]
    exact hes _ (h.congr fun x => by rw [c_none (by simpa using ho)]; rfl)

/-- A converting constructor: the claim moves to the new object. -/
theorem convertFrom_spec {k : Kind} {b : Obj} {ok : Bool} (hb : b.Ok) :
    let (r, b', es) := b.convertFrom k ok
    (∀ a, r = some a → a.Ok ∧ a.kind = k ∧ a.m = b.m ∧ a.owned = b.owned) ∧ b'.Ok ∧ b'.kind = b.kind ∧ (r = none → b' = b) ∧
    (r.isSome → b'.owned = false ∧ b'.m = none) ∧
    (ok = true → r.isSome) ∧
    ∀ (f g : Nat × Kind → Nat) (l : Ledger) (es' : List Event), Bal (fun x => f x + c b x) l →
      (∀ l', Bal (fun x => f x + c b' x + (match r with | some a => c a x | none => 0)) l' → Follows specNext (Bal g) l' es') →
      Follows specNext (Bal g) l (es ++ es') := by
  simp only [Obj.convertFrom]
  by_cases ho : b.owned = true
  · simp only [ho, if_true]
    have := hb ho
    cases hm : b.m with
    | none => rw [hm] at this; cases this
    | some m =>
      cases ok with
      | true =>
        simp only [if_true]
        refine ⟨by rintro a ⟨⟩; exact ⟨.of_some rfl, rfl, rfl, rfl⟩, .of_not_owned rfl, by trivial, by simp, by simp, by simp, ?_⟩
        intro f g l es' h hes
        refine follows_conv (h.congr fun x => by rw [c_own ho hm]) ?_
        intro l' h'
        apply hes
        refine h'.congr fun x => ?_
        rw [c_none rfl, c_own (m := m) rfl rfl, Nat.add_zero]
      | false =>
        simp only [Bool.false_eq_true, if_false]
        refine ⟨by simp, hb, by trivial, by simp, by simp, by simp, ?_⟩
        intro f g l es' h hes
        simp only [List.cons_append, List.nil_append, Follows, specNext]
        exact hes _ h
  · have ho : b.owned = false := by simpa using ho
    simp only [ho, Bool.false_eq_true, if_false]
    refine ⟨by rintro a ⟨⟩; exact ⟨.of_not_owned rfl, rfl, rfl, rfl⟩, .of_not_owned rfl, by trivial, by simp, by simp, by simp, ?_⟩
    intro f g l es' h hes
    apply hes
    refine h.congr fun x => ?_
    rw [c_none ho, c_none rfl, c_none rfl]

theorem tryConvertFrom_spec {k : Kind} {b : Obj} {r : TryResult} (hb : b.Ok) :
    let (r, b', es) := b.tryConvertFrom k r
    (∀ a, r = some a → a.Ok ∧ a.kind = k) ∧ b'.Ok ∧ b'.kind = b.kind ∧
    ∀ (f g : Nat × Kind → Nat) (l : Ledger) (es' : List Event), Bal (fun x => f x + c b x) l →
      (∀ l', Bal (fun x => f x + c b' x + (match r with | some a => c a x | none => 0)) l' → Follows specNext (Bal g) l' es') →
      Follows specNext (Bal g) l (es ++ es') := by
  simp only [Obj.tryConvertFrom]
  by_cases ho : b.owned = true
  · simp only [ho, if_true]
    have := hb ho
    cases hm : b.m with
    | none => rw [hm] at this; cases this
    | some m =>
      cases r with
      | yes =>
        simp only
        refine ⟨by rintro a ⟨⟩; exact ⟨.of_some rfl, rfl⟩, .of_not_owned rfl, by trivial, ?_⟩
        intro f g l es' h hes
        refine follows_conv (h.congr fun x => by rw [c_own ho hm]) ?_
        intro l' h'
        apply hes
        refine h'.congr fun x => ?_
        rw [c_none rfl, c_own (m := m) rfl rfl, Nat.add_zero]
      | no =>
        simp only
        refine ⟨by rintro a ⟨⟩; exact ⟨.of_not_owned rfl, rfl⟩, hb, by trivial, ?_⟩
        intro f g l es' h hes
        exact hes _ (h.congr fun x => by rw [c_none (a := Obj.empty k) rfl]; rfl)
      | throws =>
        simp only
        refine ⟨by simp, hb, by trivial, ?_⟩
        intro f g l es' h hes
        simp only [List.cons_append, List.nil_append, Follows, specNext]
        exact hes _ h
  · have ho : b.owned = false := by simpa using ho
    simp only [ho, Bool.false_eq_true, if_false]
    refine ⟨by rintro a ⟨⟩; exact ⟨.of_not_owned rfl, rfl⟩, .of_not_owned rfl, by trivial, ?_⟩
    intro f g l es' h hes
    apply hes
    refine h.congr fun x => ?_
    rw [c_none ho, c_none rfl, c_none rfl]

/-! ## Steps -/

theorem swap_ok1 {a b : Obj} (h : b.Ok) : (a.swap b).1.Ok := h
theorem swap_ok2 {a b : Obj} (h : a.Ok) : (a.swap b).2.Ok := h
theorem moved_ok (b : Obj) : b.moveFrom.2.Ok := .of_not_owned rfl
theorem c_swap1 {a b : Obj} (h : a.kind = b.kind) (x : Nat × Kind) : c (a.swap b).1 x = c b x :=
  c_congr (a := (a.swap b).1) h rfl rfl x
theorem c_swap2 {a b : Obj} (h : a.kind = b.kind) (x : Nat × Kind) : c (a.swap b).2 x = c a x :=
  c_congr (a := (a.swap b).2) h.symm rfl rfl x
theorem c_moved (b : Obj) (x : Nat × Kind) : c b.moveFrom.2 x = 0 := c_none rfl x

/-- Accounts balance. -/
def R (s : State) (l : Ledger) : Prop := Bal (n s) l ∧ WF s

/-- The new state is well-formed and the ledger follows. -/
def StepOk (l : Ledger) (r : State × List Event) : Prop := WF r.1 ∧ Follows specNext (Bal (n r.1)) l r.2

theorem assignTemp_ok {s : State} (w : WF s) {dst : Nat} {a temp : Obj} (h : getO s dst = some a) (ht : temp.Ok) (hk : temp.kind = a.kind) :
    WF (assignTemp s dst a temp).1 ∧ ∀ (g : Nat × Kind → Nat) (l : Ledger) (es : List Event), Bal (fun x => n s x + c temp x) l →
      (∀ l', Bal (n (assignTemp s dst a temp).1) l' → Follows specNext (Bal g) l' es) →
      Follows specNext (Bal g) l ((assignTemp s dst a temp).2 ++ es) := by
  refine ⟨w.setO h (swap_ok1 ht) rfl, ?_⟩
  intro g l es hb hes
  refine follows_dtor (swap_ok2 (w.objs _ _ h)) (f := n (assignTemp s dst a temp).1) (hb.congr fun x => ?_) hes
  have e1 := n_setO h (a.swap temp).1 x
  have e2 := c_swap1 hk.symm x
  have e3 := c_swap2 hk.symm x
  simp only [assignTemp]; omega

theorem assignTemp_getU (s : State) (dst : Nat) (a temp : Obj) (u : Nat) : getU (assignTemp s dst a temp).1 u = getU s u := rfl

theorem upDtor_ok {s : State} (w : WF s) {x : Up} (hx : x.ex.Ok) (hs : SrcOk s x.source) {l : Ledger}
    (hb : Bal (fun y => n s y + c x.ex y) l) : StepOk l (upDtor s x) := by
  simp only [StepOk, upDtor]
  cases hsrc : x.source with
  | none =>
    simp only
    refine ⟨w, ?_⟩
    have := follows_dtor (es := []) hx hb (fun l' h' => follows_nil h' fun _ => rfl)
    simpa using this
  | some src =>
    simp only
    cases ha : getO s src with
    | none => exact ⟨w, trivial⟩
    | some a =>
      simp only
      have hak := (hs src hsrc).2 a ha
      have hc := convertFrom_spec (k := .upgrade) (b := x.ex) (ok := true) hx
      generalize x.ex.convertFrom .upgrade true = q at hc
      obtain ⟨r, ex', es⟩ := q
      simp only at hc ⊢
      obtain ⟨h1, h2, h3, h4, h5, h6, h7⟩ := hc
      cases r with
      | none => simp at h6
      | some temp =>
        simp only
        obtain ⟨t1, t2, t3, t4⟩ := h1 temp rfl
        obtain ⟨w', ht⟩ := assignTemp_ok w ha t1 (t2.trans hak.symm)
        refine ⟨w', ?_⟩
        rw [List.append_assoc]
        refine h7 (n s) _ l _ hb ?_
        intro l' hb'
        have he : ∀ y, c ex' y = 0 := fun y => c_none (h5 rfl).1 y
        refine ht _ l' _ (hb'.congr fun y => by simp only [he]; omega) ?_
        intro l'' hb''
        have hd : ex'.dtor = [] := by simp [Obj.dtor, (h5 rfl).1]
        rw [hd]
        exact hb''

theorem step_ok {s s' : State} {lab : Label} {es : List Event} {l : Ledger} (w : WF s) (hb : Bal (n s) l) (h : step s lab = some (s', es)) :
    StepOk l (s', es) := by
  cases lab with
  | ctor k =>
    cases h
    exact ⟨w.addO (.of_not_owned rfl), follows_nil hb fun x => by rw [n_addO, c_none rfl]; rfl⟩
  | ctorLock k m ok =>
    simp only [step] at h
    split at h <;> cases h
    · exact ⟨w.addO (.of_some rfl), follows_acq hb fun l' h' => follows_nil h' fun x => by rw [n_addO, c_own (m := m) rfl rfl]⟩
    · exact ⟨w, hb⟩
  | ctorAdopt k m =>
    cases h
    exact ⟨w.addO (.of_some rfl), follows_adopt hb fun l' h' => follows_nil h' fun x => by rw [n_addO, c_own (m := m) rfl rfl]⟩
  | ctorDefer k m =>
    cases h
    exact ⟨w.addO (.of_not_owned rfl), follows_nil hb fun x => by rw [n_addO, c_none rfl]; rfl⟩
  | ctorTry k m r =>
    simp only [step] at h
    split at h <;> cases h
    · exact ⟨w.addO (.of_some rfl), follows_acq hb fun l' h' => follows_nil h' fun x => by rw [n_addO, c_own (m := m) rfl rfl]⟩
    · exact ⟨w.addO (.of_not_owned rfl), follows_nil hb fun x => by rw [n_addO, c_none rfl]; rfl⟩
    · exact ⟨w, hb⟩
  | move src =>
    simp only [step, Option.bind_eq_bind, Option.bind_eq_some_iff] at h
    obtain ⟨b, hg, h⟩ := h
    cases h
    refine ⟨(w.setO hg (moved_ok b) rfl).addO (b := b.moveFrom.1) (w.objs _ _ hg), follows_nil hb fun x => ?_⟩
    have e1 := n_setO hg b.moveFrom.2 x
    have e2 : c b.moveFrom.2 x = 0 := c_none rfl x
    rw [n_addO]
    show n (setO s src b.moveFrom.2) x + c b x = n s x
    omega
  | convert src k ok =>
    simp only [step, Option.bind_eq_bind, Option.bind_eq_some_iff] at h
    obtain ⟨b, hg, h⟩ := h
    split at h
    · have hc := convertFrom_spec (k := k) (b := b) (ok := ok) (w.objs _ _ hg)
      generalize b.convertFrom k ok = q at hc h
      obtain ⟨r, b', es'⟩ := q
      simp only at hc h
      obtain ⟨h1, h2, h3, h4, h5, h6, h7⟩ := hc
      have key : ∀ x, n s x + c b' x = n (setO s src b') x + c b x := fun x => (n_setO hg b' x).symm
      have key2 : ∀ x, c b x ≤ n s x := fun x => by
        have := n_killO hg x; omega
      have hb' : Bal (fun x => (n s x - c b x) + c b x) l := hb.congr fun x => by have := key2 x; omega
      cases r with
      | some a =>
        cases h
        refine ⟨(w.setO hg h2 h3).addO (h1 a rfl).1, ?_⟩
        have := h7 _ (n (addO (setO s src b') a)) l [] hb' (fun l' hl' => follows_nil hl' fun x => by
          have := key x; have := key2 x; rw [n_addO]; simp only; omega)
        simpa using this
      | none =>
        cases h
        refine ⟨w.setO hg h2 h3, ?_⟩
        have := h7 _ (n (setO s src b')) l [] hb' (fun l' hl' => follows_nil hl' fun x => by
          have := key x; have := key2 x; simp only; omega)
        simpa using this
    · cases h
  | tryConvert src k r =>
    simp only [step, Option.bind_eq_bind, Option.bind_eq_some_iff] at h
    obtain ⟨b, hg, h⟩ := h
    split at h
    · have hc := tryConvertFrom_spec (k := k) (b := b) (r := r) (w.objs _ _ hg)
      generalize b.tryConvertFrom k r = q at hc h
      obtain ⟨r, b', es'⟩ := q
      simp only at hc h
      obtain ⟨h1, h2, h3, h7⟩ := hc
      have key : ∀ x, n s x + c b' x = n (setO s src b') x + c b x := fun x => (n_setO hg b' x).symm
      have key2 : ∀ x, c b x ≤ n s x := fun x => by
        have := n_killO hg x; omega
      have hb' : Bal (fun x => (n s x - c b x) + c b x) l := hb.congr fun x => by have := key2 x; omega
      cases r with
      | some a =>
        cases h
        refine ⟨(w.setO hg h2 h3).addO (h1 a rfl).1, ?_⟩
        have := h7 _ (n (addO (setO s src b') a)) l [] hb' (fun l' hl' => follows_nil hl' fun x => by
          have := key x; have := key2 x; rw [n_addO]; simp only; omega)
        simpa using this
      | none =>
        cases h
        refine ⟨w.setO hg h2 h3, ?_⟩
        have := h7 _ (n (setO s src b')) l [] hb' (fun l' hl' => follows_nil hl' fun x => by
          have := key x; have := key2 x; simp only; omega)
        simpa using this
    · cases h
  | assign dst src =>
    simp only [step, Option.bind_eq_bind, Option.bind_eq_some_iff] at h
    obtain ⟨b, hg, a, ha, h⟩ := h
    split at h
    · next hk =>
      have w1 : WF (setO s src b.moveFrom.2) := w.setO hg (.of_not_owned rfl) rfl
      obtain ⟨w', ht⟩ := assignTemp_ok w1 ha (temp := b.moveFrom.1) (w.objs _ _ hg) hk.symm
      cases h
      refine ⟨w', ?_⟩
      have := ht (n (assignTemp (setO s src b.moveFrom.2) dst a b.moveFrom.1).1) l [] (hb.congr fun x => by
        have e1 := n_setO hg b.moveFrom.2 x
        have e2 : c b.moveFrom.2 x = 0 := c_none rfl x
        show n s x = n (setO s src b.moveFrom.2) x + c b x
        omega) (fun l' h' => follows_nil h' fun _ => rfl)
      rw [List.append_nil] at this
      exact this
    · cases h
  | assignConvert dst src ok =>
    simp only [step, Option.bind_eq_bind, Option.bind_eq_some_iff] at h
    obtain ⟨b, hg, a, ha, h⟩ := h
    split at h
    · next hcv =>
      have hne : src ≠ dst := by
        rintro rfl
        rw [hg] at ha; cases ha
        revert hcv; cases b.kind <;> simp [canConvert]
      have hc := convertFrom_spec (k := a.kind) (b := b) (ok := ok) (w.objs _ _ hg)
      generalize b.convertFrom a.kind ok = q at hc h
      obtain ⟨r, b', es'⟩ := q
      simp only at hc h
      obtain ⟨h1, h2, h3, h4, h5, h6, h7⟩ := hc
      have key : ∀ x, n s x + c b' x = n (setO s src b') x + c b x := fun x => (n_setO hg b' x).symm
      have key2 : ∀ x, c b x ≤ n s x := fun x => by
        have := n_killO hg x; omega
      have hb' : Bal (fun x => (n s x - c b x) + c b x) l := hb.congr fun x => by have := key2 x; omega
      have w1 : WF (setO s src b') := w.setO hg h2 h3
      cases r with
      | some temp =>
        have ha' : getO (setO s src b') dst = some a := by rw [getO_setO hg, if_neg hne]; exact ha
        obtain ⟨w', ht⟩ := assignTemp_ok w1 ha' (temp := temp) (h1 temp rfl).1 (h1 temp rfl).2.1
        cases h
        refine ⟨w', ?_⟩
        refine h7 _ _ l _ hb' ?_
        intro l' hl'
        have := ht (n (assignTemp (setO s src b') dst a temp).1) l' [] (hl'.congr fun x => by
          have := key x; have := key2 x; simp only; omega) (fun l' h' => follows_nil h' fun _ => rfl)
        simpa using this
      | none =>
        cases h
        refine ⟨w1, ?_⟩
        have := h7 _ (n (setO s src b')) l [] hb' (fun l' hl' => follows_nil hl' fun x => by
          have := key x; have := key2 x; simp only; omega)
        simpa using this
    · cases h
  | swap x y =>
    simp only [step, Option.bind_eq_bind, Option.bind_eq_some_iff] at h
    obtain ⟨a, ha, b, hg, h⟩ := h
    split at h
    · next hk =>
      split at h
      · cases h; exact ⟨w, hb⟩
      · next hne =>
        cases h
        have w1 : WF (setO s x (a.swap b).1) := w.setO ha (swap_ok1 (w.objs _ _ hg)) rfl
        have hg' : getO (setO s x (a.swap b).1) y = some b := by rw [getO_setO ha, if_neg hne]; exact hg
        refine ⟨w1.setO hg' (swap_ok2 (w.objs _ _ ha)) rfl, follows_nil hb fun z => ?_⟩
        have e1 := n_setO ha (a.swap b).1 z
        have e2 := n_setO hg' (a.swap b).2 z
        have e3 := c_swap1 hk z
        have e4 := c_swap2 hk z
        show n (setO (setO s x (a.swap b).1) y (a.swap b).2) z = n s z
        omega
    · cases h
  | destroy o =>
    simp only [step, Option.bind_eq_bind, Option.bind_eq_some_iff] at h
    obtain ⟨a, ha, h⟩ := h
    cases h
    refine ⟨w.killO o, ?_⟩
    have := follows_dtor (es := []) (f := n { s with objs := s.objs.set o none }) (w.objs _ _ ha) (hb.congr fun x => (n_killO ha x).symm)
      (fun l' h' => follows_nil h' fun _ => rfl)
    simpa using this
  | lock o ok =>
    simp only [step, Option.bind_eq_bind, Option.bind_eq_some_iff] at h
    obtain ⟨a, ha, h⟩ := h
    split at h
    · cases h; exact ⟨w, hb⟩
    · next m hm =>
      split at h
      · cases h; exact ⟨w, hb⟩
      · next ho =>
        split at h
        · cases h
          refine ⟨w.setO ha (.of_some (by simp [hm])) rfl, follows_acq hb fun l' h' => follows_nil h' fun x => ?_⟩
          have e1 := n_setO ha { a with owned := true } x
          rw [c_none (a := a) (by simpa using ho), c_own (a := { a with owned := true }) (m := m) rfl hm] at e1
          simp only at e1 ⊢; omega
        · cases h; exact ⟨w, hb⟩
  | tryLock o r =>
    simp only [step, Option.bind_eq_bind, Option.bind_eq_some_iff] at h
    obtain ⟨a, ha, h⟩ := h
    split at h
    · cases h; exact ⟨w, hb⟩
    · next m hm =>
      split at h
      · cases h; exact ⟨w, hb⟩
      · next ho =>
        split at h
        · cases h
          refine ⟨w.setO ha (.of_some (by simp [hm])) rfl, follows_acq hb fun l' h' => ?_⟩
          simp only [Follows, specNext]
          refine follows_nil h' fun x => ?_
          have e1 := n_setO ha { a with owned := true } x
          rw [c_none (a := a) (by simpa using ho), c_own (a := { a with owned := true }) (m := m) rfl hm] at e1
          simp only at e1 ⊢; omega
        · cases h
          refine ⟨w.setO ha (.of_not_owned rfl) rfl, ?_⟩
          simp only [Follows, specNext]
          refine follows_nil hb fun x => ?_
          have e1 := n_setO ha { a with owned := false } x
          rw [c_none (a := a) (by simpa using ho), c_none rfl] at e1
          omega
        · cases h; exact ⟨w, hb⟩
  | unlock o ok =>
    simp only [step, Option.bind_eq_bind, Option.bind_eq_some_iff] at h
    obtain ⟨a, ha, h⟩ := h
    split at h
    · cases h; exact ⟨w, hb⟩
    · next m hm =>
      split at h
      · cases h; exact ⟨w, hb⟩
      · next ho =>
        split at h
        · cases h
          refine ⟨w.setO ha (.of_not_owned rfl) rfl, ?_⟩
          refine follows_rel (f := n (setO s o { a with owned := false })) (hb.congr fun x => ?_) fun l' h' => follows_nil h' fun _ => rfl
          have e1 := n_setO ha { a with owned := false } x
          rw [c_own (m := m) (by simpa using ho) hm, c_none rfl] at e1
          omega
        · cases h; exact ⟨w, hb⟩
  | owns o =>
    simp only [step, Option.bind_eq_bind, Option.bind_eq_some_iff] at h
    obtain ⟨a, ha, h⟩ := h
    cases h; exact ⟨w, hb⟩
  | mutex o =>
    simp only [step, Option.bind_eq_bind, Option.bind_eq_some_iff] at h
    obtain ⟨a, ha, h⟩ := h
    cases h; exact ⟨w, hb⟩
  | release o =>
    simp only [step, Option.bind_eq_bind, Option.bind_eq_some_iff] at h
    obtain ⟨a, ha, h⟩ := h
    cases h
    refine ⟨w.setO ha (.of_not_owned rfl) rfl, ?_⟩
    have e1 : ∀ x, _ := fun x => n_setO ha a.release x
    have e2 : ∀ x, c a.release x = 0 := fun x => c_none rfl x
    by_cases ho : a.owned = true
    · have := w.objs _ _ ha ho
      cases hm : a.m with
      | none => rw [hm] at this; cases this
      | some m =>
        simp only [ho, if_true, List.cons_append, List.nil_append]
        refine follows_hand (f := n (setO s o a.release)) (hb.congr fun x => ?_) fun l' h' => ?_
        · have h1 := e1 x; have h2 := e2 x
          rw [c_own (m := m) ho hm] at h1
          omega
        · simp only [Follows, specNext]; exact h'
    · have ho : a.owned = false := by simpa using ho
      simp only [ho, Bool.false_eq_true, if_false, List.nil_append, Follows, specNext]
      refine follows_nil hb fun x => ?_
      have := e1 x; have := e2 x; have := c_none ho x
      omega
  | upCtor src ok =>
    simp only [step, Option.bind_eq_bind, Option.bind_eq_some_iff] at h
    obtain ⟨b, hg, h⟩ := h
    split at h
    · next hk =>
      have hc := convertFrom_spec (k := .unique) (b := b) (ok := ok) (w.objs _ _ hg)
      generalize b.convertFrom .unique ok = q at hc h
      obtain ⟨r, b', es'⟩ := q
      simp only at hc h
      obtain ⟨h1, h2, h3, h4, h5, h6, h7⟩ := hc
      have key : ∀ x, n s x + c b' x = n (setO s src b') x + c b x := fun x => (n_setO hg b' x).symm
      have key2 : ∀ x, c b x ≤ n s x := fun x => by
        have := n_killO hg x; omega
      have hb' : Bal (fun x => (n s x - c b x) + c b x) l := hb.congr fun x => by have := key2 x; omega
      have w1 : WF (setO s src b') := w.setO hg h2 h3
      cases r with
      | some a =>
        cases h
        have hlt : src < s.objs.length := (List.getElem?_eq_some_iff.mp (getO_iff.mp hg)).1
        refine ⟨w1.addU (h1 a rfl).1 (h1 a rfl).2.1 ?_, ?_⟩
        · rintro o ⟨⟩
          refine ⟨by simpa using hlt, fun a' ha' => ?_⟩
          rw [getO_setO hg, if_pos rfl] at ha'
          cases ha'; rw [h3, hk]
        · have := h7 _ (n (addU (setO s src b') { source := some src, ex := a })) l [] hb' (fun l' hl' => follows_nil hl' fun x => by
            have := key x; have := key2 x; rw [n_addU]; simp only; omega)
          simpa using this
      | none =>
        cases h
        refine ⟨w1, ?_⟩
        have := h7 _ (n (setO s src b')) l [] hb' (fun l' hl' => follows_nil hl' fun x => by
          have := key x; have := key2 x; simp only; omega)
        simpa using this
    · cases h
  | upMove u =>
    simp only [step, Option.bind_eq_bind, Option.bind_eq_some_iff] at h
    obtain ⟨x, hx, h⟩ := h
    cases h
    obtain ⟨x1, x2⟩ := w.ups _ _ hx
    refine ⟨(w.setU hx (y := { source := none, ex := x.ex.moveFrom.2 }) (moved_ok _) x2 (by rintro o ⟨⟩)).addU (y := { source := x.source, ex := x.ex.moveFrom.1 }) x1 x2 (fun o ho => w.src _ _ o hx ho), follows_nil hb fun y => ?_⟩
    have e1 := n_setU hx { source := none, ex := x.ex.moveFrom.2 } y
    have e2 : c x.ex.moveFrom.2 y = 0 := c_none rfl y
    rw [n_addU]
    show n (setU s u { source := none, ex := x.ex.moveFrom.2 }) y + c x.ex y = n s y
    simp only at e1
    omega
  | upAssign dst src =>
    simp only [step, Option.bind_eq_bind, Option.bind_eq_some_iff] at h
    obtain ⟨x, hx, y, hy, h⟩ := h
    obtain ⟨x1, x2⟩ := w.ups _ _ hx
    have hxs : SrcOk s x.source := fun o ho => w.src _ _ o hx ho
    have w1 : WF (setU s src { source := none, ex := x.ex.moveFrom.2 }) := w.setU hx (.of_not_owned rfl) x2 (by rintro o ⟨⟩)
    obtain ⟨y1, y2⟩ := w1.ups _ _ hy
    have hys : SrcOk s y.source := fun o ho => w1.src _ _ o hy ho
    have w2 : WF (setU (setU s src { source := none, ex := x.ex.moveFrom.2 }) dst { source := x.source, ex := (y.ex.swap x.ex).1 }) :=
      w1.setU (y := { source := x.source, ex := (y.ex.swap x.ex).1 }) hy (swap_ok1 x1) y2 hxs
    have h : upDtor _ _ = (s', es) := Option.some.inj h
    rw [← h]
    refine upDtor_ok (x := { source := y.source, ex := (y.ex.swap x.ex).2 }) w2 (swap_ok2 y1) hys (hb.congr fun z => ?_)
    have e1 := n_setU hx { source := none, ex := x.ex.moveFrom.2 } z
    have e2 : c x.ex.moveFrom.2 z = 0 := c_none rfl z
    have e3 := n_setU hy { source := x.source, ex := (y.ex.swap x.ex).1 } z
    have e4 := c_swap1 (y2.trans x2.symm) z
    have e5 := c_swap2 (y2.trans x2.symm) z
    simp only at e1 e3 ⊢
    omega
  | upSwap u v =>
    simp only [step, Option.bind_eq_bind, Option.bind_eq_some_iff] at h
    obtain ⟨x, hx, y, hy, h⟩ := h
    obtain ⟨x1, x2⟩ := w.ups _ _ hx
    obtain ⟨y1, y2⟩ := w.ups _ _ hy
    split at h
    · cases h; exact ⟨w, hb⟩
    · next hne =>
      cases h
      have w1 : WF (setU s u { source := y.source, ex := (x.ex.swap y.ex).1 }) := w.setU (y := { source := y.source, ex := (x.ex.swap y.ex).1 }) hx (swap_ok1 y1) x2 (fun o ho => w.src _ _ o hy ho)
      have hy' : getU (setU s u { source := y.source, ex := (x.ex.swap y.ex).1 }) v = some y := by rw [getU_setU hx, if_neg hne]; exact hy
      refine ⟨w1.setU (y := { source := x.source, ex := (x.ex.swap y.ex).2 }) hy' (swap_ok2 x1) y2 (fun o ho => w.src _ _ o hx ho), follows_nil hb fun z => ?_⟩
      have e1 := n_setU hx { source := y.source, ex := (x.ex.swap y.ex).1 } z
      have e2 := n_setU hy' { source := x.source, ex := (x.ex.swap y.ex).2 } z
      have e3 := c_swap1 (x2.trans y2.symm) z
      have e4 := c_swap2 (x2.trans y2.symm) z
      simp only at e1 e2 ⊢
      omega
  | upOwns u =>
    simp only [step, Option.bind_eq_bind, Option.bind_eq_some_iff] at h
    obtain ⟨a, ha, h⟩ := h
    cases h; exact ⟨w, hb⟩
  | upDestroy u =>
    simp only [step, Option.bind_eq_bind, Option.bind_eq_some_iff] at h
    obtain ⟨x, hx, h⟩ := h
    obtain ⟨x1, x2⟩ := w.ups _ _ hx
    have h : upDtor _ _ = (s', es) := Option.some.inj h
    rw [← h]
    exact upDtor_ok (w.killU u) x1 (fun o ho => w.src _ _ o hx ho) (hb.congr fun z => (n_killU hx z).symm)

theorem R_step (s : State) (lab : Label) (s' : State) (es : List Event) (l : Ledger) (hR : R s l) (h : step s lab = some (s', es)) :
    Follows specNext (R s') l es := by
  obtain ⟨w, hf⟩ := step_ok hR.2 hR.1 h
  exact hf.and w

theorem R_init : R init [] := ⟨fun x => rfl, ⟨by simp [getO, init], by simp [getU, init], by simp [getU, init]⟩⟩

end Verif.LockObj
