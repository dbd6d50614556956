import Verif.WaitCallback.Model
/-! # What wait callbacks promise -/

namespace Verif.WaitCallback

/-- A call of `get` or a timed wait that has not returned. -/
structure Call where
  k : Nat
  kd : Kind
  /-- when it was called, the future was not ready -/
  early : Bool
  /-- when it was called, there was a callback, and the future was not ready -/
  must : Bool
  /-- the callbacks that there have been since it was called -/
  cands : List Nat
  /-- the callback has begun -/
  began : Bool
  /-- it is executed -/
  inCb : Bool
  /-- it has thrown -/
  threw : Bool
deriving DecidableEq, Repr

structure Spec where
  /-- the promises, and which future they belong to -/
  obj : Nat → Option (Option Nat) := fun _ => none
  res : Nat → Option Res := fun _ => none
  cb : Nat → Option Nat := fun _ => none
  calls : Nat → List Call := fun _ => []

/-- A call for `k` may still call, or is calling, the callback with promise `p`. -/
def Call.uses (k p : Nat) (c : Call) : Bool := c.k == k && c.cands.contains p && (!c.began || c.inCb)

def Spec.busy (n : Nat) (σ : Spec) (k p : Nat) : Prop := ∃ t, t < n ∧ (σ.calls t).any (Call.uses k p) = true

instance (n : Nat) (σ : Spec) (k p : Nat) : Decidable (σ.busy n k p) := by unfold Spec.busy; infer_instance

/-- A new callback for `k` can be called by the calls in progress. -/
def Call.add (k p : Nat) (c : Call) : Call := if c.k = k then { c with cands := p :: c.cands } else c

def Spec.ready (σ : Spec) (k : Nat) (r : Res) : Spec := match σ.res k with | some _ => σ | none => { σ with res := upd σ.res k (some r) }

def Spec.top (σ : Spec) (t : Nat) (c : Call) (cs : List Call) : Spec := { σ with calls := upd σ.calls t (c :: cs) }

def Spec.pop (σ : Spec) (t : Nat) (cs : List Call) : Spec := { σ with calls := upd σ.calls t cs }

/-- The client has the promise with the shared state `k`. -/
def isOf (σ : Spec) (p k : Nat) : Prop := σ.obj p = some (some k)

instance (σ : Spec) (p k : Nat) : Decidable (isOf σ p k) := by unfold isOf; infer_instance

/-- `strict`: a promise with a wait callback can be moved, and destroyed whenever the thread that owns it wants to. -/
def next (n : Nat) (strict : Bool) (σ : Spec) : Event → Verdict Spec
  | .created _ p => .ok { σ with obj := upd σ.obj p (some (some p)) }
  | .callbackSet _ p =>
    match σ.obj p with
    | some (some k) => .ok { σ with cb := upd σ.cb k (some p), calls := fun t => (σ.calls t).map (Call.add k p) }
    | _ => .undefined
  | .moved _ p q =>
    match σ.obj p with
    | some (some k) =>
      if strict = false ∧ (σ.cb k = some p ∨ σ.busy n k p) then .undefined
      -- the callback follows the promise
      else .ok { σ with obj := upd (upd σ.obj q (some (some k))) p (some none) }
    | some none => .ok { σ with obj := upd (upd σ.obj q (some none)) p (some none) }
    | none => .undefined
  | .destroyed _ p =>
    match σ.obj p with
    | some (some k) =>
      if strict = false ∧ σ.busy n k p then .undefined
      else .ok (Spec.ready { σ with obj := upd σ.obj p none } k .broken)
    | some none => .ok { σ with obj := upd σ.obj p none }
    | none => .undefined
  -- a promise is satisfied once
  | .wasSet _ p r =>
    match σ.obj p with
    | some (some k) => if σ.res k = none then .ok (σ.ready k r) else .illegal
    | _ => .undefined
  | .satisfied _ p =>
    match σ.obj p with
    | some (some k) => if σ.res k = none then .illegal else .ok σ
    | _ => .undefined
  | .called t k kd =>
    let c : Call := { k, kd, early := σ.res k = none, must := σ.cb k ≠ none ∧ σ.res k = none, cands := (σ.cb k).toList, began := false, inCb := false, threw := false }
    match σ.calls t with
    | [] => .ok (σ.top t c [])
    | c' :: cs => if c'.inCb then .ok (σ.top t c (c' :: cs)) else .illegal
  -- a callback is called once per call at most, by the thread that waits, if the future was not ready when it began to wait, with the promise of this future
  | .cbBegan t k p =>
    match σ.calls t with
    | c :: cs => if c.k = k ∧ c.early ∧ c.began = false ∧ p ∈ c.cands ∧ isOf σ p k then .ok (σ.top t { c with began := true, inCb := true } cs) else .illegal
    | [] => .illegal
  | .cbEnded t k =>
    match σ.calls t with
    | c :: cs => if c.k = k ∧ c.inCb then .ok (σ.top t { c with inCb := false } cs) else .illegal
    | [] => .illegal
  | .cbThrew t k =>
    match σ.calls t with
    | c :: cs => if c.k = k ∧ c.inCb then .ok (σ.top t { c with inCb := false, threw := true } cs) else .illegal
    | [] => .illegal
  -- a call returns the result
  | .returned t k kd r =>
    match σ.calls t with
    | c :: cs => if c.k = k ∧ c.kd = kd ∧ c.inCb = false ∧ c.threw = false ∧ σ.res k = some r then .ok (σ.pop t cs) else .illegal
    | [] => .illegal
  -- a timed call gives up only if the future is not ready, and not without having called the callback
  | .timedOut t k =>
    match σ.calls t with
    | c :: cs => if c.k = k ∧ c.kd = .timed ∧ c.inCb = false ∧ c.threw = false ∧ σ.res k = none ∧ (c.must → c.began) then .ok (σ.pop t cs) else .illegal
    | [] => .illegal
  -- what the callback throws leaves the call
  | .threw t k =>
    match σ.calls t with
    | c :: cs => if c.k = k ∧ c.threw then .ok (σ.pop t cs) else .illegal
    | [] => .illegal
  | .undefinedBehaviour => .illegal

end Verif.WaitCallback
