import Verif.Guards.Model
/-! # What the scoped locks promise

The state is what an observer knows from the history: which scopes are open and which lock objects own what. Ownership of a mutex is defined by them, not by calls of `lock` and `unlock`. -/

namespace Verif.Guards

/-- An open scope, and the objects to which access has been given with it. -/
inductive Scope where
  | guard (m : Nat)
  | sguard (m : Nat)
  | strict (m : Nat) (acc : List Nat)
  | nested (i : Nat) (sh : Bool) (m : Nat) (acc : List Nat)
  | reverse (i : Nat) (m : Option Nat)
deriving DecidableEq, Repr

structure Spec where
  /-- how often a thread has locked a mutex directly -/
  raw : Nat → Nat → Nat
  lk : Nat → List Obj
  scopes : Nat → List Scope

def Spec.new (c : Cfg) : Spec := { raw := fun _ _ => 0, lk := fun t => (c.sh t).map fun b => ⟨b, none, false⟩, scopes := fun _ => [] }

def Obj.holds (sh : Bool) (m : Nat) (o : Obj) : Bool := o.sh == sh && o.owns && o.mtx == some m

/-- The scope keeps mutex `m`, exclusively or shared. -/
def Scope.holds (sh : Bool) (m : Nat) : Scope → Bool
  | .guard m' => !sh && m' == m
  | .sguard m' => sh && m' == m
  | .strict m' _ => !sh && m' == m
  | .nested _ sh' m' _ => sh' == sh && m' == m
  | .reverse _ _ => false

/-- How often thread `t` holds mutex `m` exclusively: directly, by scopes and by lock objects. -/
def Spec.excl (σ : Spec) (t m : Nat) : Nat := σ.raw t m + (σ.scopes t).countP (Scope.holds false m) + (σ.lk t).countP (Obj.holds false m)

/-- How often it holds it shared. -/
def Spec.shared (σ : Spec) (t m : Nat) : Nat := (σ.scopes t).countP (Scope.holds true m) + (σ.lk t).countP (Obj.holds true m)

/-- Thread `t` may get `m` exclusively: nobody else holds it, and it does not hold it itself unless the mutex is recursive. -/
def mayLock (c : Cfg) (σ : Spec) (t m : Nat) : Prop := (∀ u < c.n, u ≠ t → σ.excl u m = 0) ∧ (∀ u < c.n, σ.shared u m = 0) ∧ (σ.excl t m = 0 ∨ c.recur m = true)

instance (c : Cfg) (σ : Spec) (t m : Nat) : Decidable (mayLock c σ t m) := inferInstanceAs (Decidable (_ ∧ _ ∧ _))

def mayShare (c : Cfg) (σ : Spec) (m : Nat) : Prop := ∀ u < c.n, σ.excl u m = 0

instance (c : Cfg) (σ : Spec) (m : Nat) : Decidable (mayShare c σ m) := inferInstanceAs (Decidable (∀ u < c.n, σ.excl u m = 0))

def mayAcquire (c : Cfg) (σ : Spec) (t : Nat) (sh : Bool) (m : Nat) : Prop := if sh then mayShare c σ m else mayLock c σ t m

instance (c : Cfg) (σ : Spec) (t : Nat) (sh : Bool) (m : Nat) : Decidable (mayAcquire c σ t sh m) := by unfold mayAcquire; cases sh <;> simp <;> infer_instance

def Spec.open (σ : Spec) (t : Nat) (sc : Scope) : Spec := { σ with scopes := upd σ.scopes t (sc :: σ.scopes t) }

def Spec.setLk (σ : Spec) (t i : Nat) (o : Obj) : Spec := { σ with lk := upd σ.lk t ((σ.lk t).set i o) }

def Spec.setRaw (σ : Spec) (t m k : Nat) : Spec := { σ with raw := upd σ.raw t (upd (σ.raw t) m k) }

def Scope.give (x : Nat) : Scope → Scope
  | .strict m acc => .strict m (x :: acc)
  | .nested i sh m acc => .nested i sh m (x :: acc)
  | sc => sc

/-- The mutex a strict lock keeps. -/
def Scope.strictOn : Scope → Option Nat
  | .strict m _ => some m
  | .nested _ _ m _ => some m
  | _ => none

/-- The end of a scope: what it holds is given back; a `nested_strict_lock` and a `reverse_lock` leave their lock object owning the mutex. -/
def close (c : Cfg) (σ : Spec) (t : Nat) : Verdict Spec :=
  match σ.scopes t with
  | [] => .illegal
  | sc :: rest =>
    let σ' : Spec := { σ with scopes := upd σ.scopes t rest }
    match sc with
    | .nested i sh m _ => .ok (σ'.setLk t i ⟨sh, some m, true⟩)
    | .reverse i (some m) =>
      match (σ.lk t)[i]? with
      | some o => if mayAcquire c σ t o.sh m then .ok (σ'.setLk t i ⟨o.sh, some m, true⟩) else .illegal
      | none => .illegal
    | _ => .ok σ'

/-- `strict`: `reverse_lock` is also promised to work with shared locks. -/
def next (c : Cfg) (strict : Bool) (σ : Spec) : Event → Verdict Spec
  | .locked t m => if mayLock c σ t m then .ok (σ.setRaw t m (σ.raw t m + 1)) else .illegal
  | .tryLocked t m b =>
    if mayLock c σ t m then (if b then .ok (σ.setRaw t m (σ.raw t m + 1)) else .illegal)
    else (if b then .illegal else .ok σ)
  -- the client unlocks only what it has locked itself
  | .unlocked t m => if σ.raw t m = 0 then .undefined else .ok (σ.setRaw t m (σ.raw t m - 1))
  | .guarded t m => if mayLock c σ t m then .ok (σ.open t (.guard m)) else .illegal
  | .adopted t m => if σ.raw t m = 0 then .undefined else .ok ((σ.setRaw t m (σ.raw t m - 1)).open t (.guard m))
  | .sguarded t m => if mayShare c σ m then .ok (σ.open t (.sguard m)) else .illegal
  | .stricted t m => if mayLock c σ t m then .ok (σ.open t (.strict m [])) else .illegal
  | .nested t i =>
    match (σ.lk t)[i]? with
    | some ⟨sh, some m, owns⟩ => if owns ∨ mayAcquire c σ t sh m then .ok ((σ.setLk t i ⟨sh, none, false⟩).open t (.nested i sh m [])) else .illegal
    | _ => .illegal
  | .nestedThrew t i =>
    match (σ.lk t)[i]? with
    | some ⟨_, none, _⟩ => .ok σ
    | _ => .illegal
  | .reversed t i =>
    match (σ.lk t)[i]? with
    | some o => if o.sh ∧ strict = false then .undefined else .ok ((σ.setLk t i ⟨o.sh, none, false⟩).open t (.reverse i o.mtx))
    | none => .illegal
  | .left t => close c σ t
  | .lkSet t i mo =>
    match (σ.lk t)[i]? with
    | some o => .ok (σ.setLk t i ⟨o.sh, mo, false⟩)
    | none => .illegal
  | .lkLocked t i =>
    match (σ.lk t)[i]? with
    | some ⟨sh, some m, false⟩ => if mayAcquire c σ t sh m then .ok (σ.setLk t i ⟨sh, some m, true⟩) else .illegal
    | _ => .illegal
  | .lkLockThrew t i =>
    match (σ.lk t)[i]? with
    | some o => if o.mtx = none ∨ o.owns then .ok σ else .illegal
    | none => .illegal
  | .lkUnlocked t i =>
    match (σ.lk t)[i]? with
    | some o => if o.owns then .ok (σ.setLk t i ⟨o.sh, o.mtx, false⟩) else .illegal
    | none => .illegal
  | .lkUnlockThrew t i =>
    match (σ.lk t)[i]? with
    | some o => if o.owns then .illegal else .ok σ
    | none => .illegal
  | .lkOwns t i b =>
    match (σ.lk t)[i]? with
    | some o => if b = o.owns then .ok σ else .illegal
    | none => .illegal
  -- access is given exactly if the scope passed keeps the object's mutex
  | .got t x d =>
    match (σ.scopes t)[d]? with
    | some sc =>
      if sc.strictOn = some (c.mx x) then .ok { σ with scopes := upd σ.scopes t ((σ.scopes t).set d (sc.give x)) }
      else if c.checked then .illegal else .undefined
    | none => .illegal
  | .refused t x d =>
    match (σ.scopes t)[d]? with
    | some sc => if sc.strictOn = some (c.mx x) ∨ sc.strictOn = none then .illegal else .ok σ
    | none => .illegal
  | .undefinedBehaviour => .illegal

end Verif.Guards
