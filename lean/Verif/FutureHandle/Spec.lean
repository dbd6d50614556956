import Verif.Core.Run
/-!
# What futures and shared futures tell: specification

A future is a handle on one asynchronous result. The result is delivered once, by whoever owes it. A valid future gives it away by `get`, and is invalid afterwards; all copies of a `shared_future` give it
as often as they are asked, and stay valid. Moving passes the handle on, and leaves the source empty.

`full = true` is the contract. `full = false` is what is proved of the code:
* a result with a null `exception_ptr` is outside;
* so is making a `shared_future` of a future that was asked already, and making a future of a `shared_future` that has copies;
* a `get` that is interrupted makes the future invalid;
* `shared_future::get_or` throws the stored exception.
-/

namespace Verif.FutureHandle

/-- `future<T>`, `future<T&>`, `future<void>` -/
inductive Ty where
  | object
  | ref
  | void
deriving DecidableEq, Repr

/-- A configuration. `shared h`: the variable `h` is a `shared_future`, else a `future`. `invalidates`: `BOOST_THREAD_PROVIDES_FUTURE_INVALID_AFTER_GET`. The handles are numbered below `handles`. -/
structure Cfg where
  ty : Ty
  invalidates : Bool
  shared : Nat → Bool
  handles : Nat

/-- The result: a value, or an exception (`none`: a null `exception_ptr`). -/
inductive Outcome where
  | value (v : Nat)
  | exn (e : Option Nat)
deriving DecidableEq, Repr

inductive Op where
  | get
  | getOr (d : Nat)
  | wait
  | waitFor
  | excPtr
deriving DecidableEq, Repr

/-- How a call ends. -/
inductive Ret where
  | value (v : Nat)
  /-- an object that was moved from -/
  | movedFrom
  | unit
  /-- the argument of `get_or` -/
  | fallback (d : Nat)
  | threw (e : Nat)
  /-- `future_uninitialized` -/
  | uninit
  | interrupted
  | ready
  | timeout
  | exc (e : Option Nat)
  /-- null is dereferenced -/
  | nullDeref
deriving DecidableEq, Repr

inductive FState where
  | uninitialized
  | waiting
  | ready
deriving DecidableEq, Repr

inductive Event where
  /-- whoever owes the result `k` delivers it -/
  | delivered (k : Nat) (o : Outcome)
  /-- `h = promise.get_future()` -/
  | obtained (k h : Nat)
  /-- `h = future(exceptional_ptr)` -/
  | exceptional (k h : Nat) (e : Option Nat)
  | moved (src dst : Nat)
  | copied (src dst : Nat)
  | swapped (a b : Nat)
  | destroyed (h : Nat)
  | isValid (t h : Nat) (r : Bool)
  | state (t h : Nat) (r : FState)
  | hasValue (t h : Nat) (r : Bool)
  | hasException (t h : Nat) (r : Bool)
  | called (t h : Nat) (op : Op)
  | returned (t h : Nat) (op : Op) (r : Ret)
deriving DecidableEq, Repr

/-- What a handle refers to: nothing; the result `k`; or `k` which it has given away. -/
inductive Ref where
  | none
  | ref (k : Nat)
  | spent (k : Nat)
deriving DecidableEq, Repr

def Ref.target : Ref → Option Nat
  | .none => Option.none
  | .ref k | .spent k => some k

structure Cell where
  out : Option Outcome := none
  /-- there has been a handle on it -/
  given : Bool := false
  /-- the value was moved out -/
  taken : Bool := false

structure Spec where
  cell : Nat → Cell := fun _ => {}
  ref : Nat → Ref := fun _ => .none
  /-- calls in progress: thread, handle, operation -/
  busy : List (Nat × Nat × Op) := []

def upd {α : Type} (f : Nat → α) (i : Nat) (x : α) : Nat → α := fun j => if j = i then x else f j

/-- Does the call change the handle? -/
def Op.consumes (c : Cfg) (h : Nat) : Op → Bool
  | .get | .getOr _ => !c.shared h
  | _ => false

/-- No call on `h` is in progress. -/
def Spec.quiet (σ : Spec) (h : Nat) : Bool := σ.busy.all fun x => x.2.1 != h
/-- No call that changes `h` is in progress. -/
def Spec.readable (c : Cfg) (σ : Spec) (h : Nat) : Bool := σ.busy.all fun x => x.2.1 != h || !x.2.2.consumes c h

/-- The client may move `src` to `dst`. -/
def Spec.movable (full : Bool) (c : Cfg) (σ : Spec) (src dst : Nat) : Bool :=
  src != dst && σ.quiet src && σ.quiet dst &&
  (full || match σ.ref src with
    | .none => true
    | .ref k => !c.shared src || c.shared dst || (List.range c.handles).all fun j => j == src || (σ.ref j).target != some k
    | .spent _ => c.shared src || !c.shared dst)

def Spec.outcome (σ : Spec) (h : Nat) : Option Outcome := (σ.ref h).target.bind fun k => (σ.cell k).out

def fstate (σ : Spec) (h : Nat) : FState :=
  match σ.ref h with
  | .none => .uninitialized
  | _ => if (σ.outcome h).isSome then .ready else .waiting

/-- The value, if it is asked for. -/
def valueRet (ty : Ty) (taken : Bool) (v : Nat) : Ret :=
  match ty with
  | .object => if taken then .movedFrom else .value v
  | .ref => .value v
  | .void => .unit

/-- The answer of a handle that refers to a result. -/
def answer (full : Bool) (c : Cfg) (h : Nat) (taken : Bool) : Outcome → Op → Ret
  | .value v, .get => valueRet c.ty taken v
  | .value v, .getOr _ => valueRet c.ty taken v
  | .value _, .excPtr => .exc none
  | .exn e, .get => .threw (e.getD 0)
  | .exn e, .getOr d => if full || !c.shared h then .fallback d else .threw (e.getD 0)
  | .exn e, .excPtr => .exc e
  | _, .wait => .unit
  | _, .waitFor => .ready

def Op.retrieves : Op → Bool
  | .get | .getOr _ => true
  | _ => false

/-- What the call must return. `none`: it must not return yet. -/
def expected (full : Bool) (c : Cfg) (σ : Spec) (h : Nat) (op : Op) : Option Ret :=
  match σ.ref h with
  | .none => some (if op = .excPtr then .exc none else .uninit)
  | .ref k => (σ.cell k).out.map fun o => answer full c h (σ.cell k).taken o op
  | .spent k => if op.retrieves then some .uninit else (σ.cell k).out.map fun o => answer full c h (σ.cell k).taken o op

/-- The consequences of a return. -/
def Spec.give (c : Cfg) (σ : Spec) (h : Nat) (op : Op) : Spec :=
  match σ.ref h with
  | .ref k =>
    if op.consumes c h then
      { σ with
        ref := if c.invalidates then upd σ.ref h (.spent k) else σ.ref
        cell := match (σ.cell k).out with
          | some (.value _) => upd σ.cell k { σ.cell k with taken := true }
          | _ => σ.cell }
    else σ
  | _ => σ

/-- An interrupted call. -/
def Spec.interrupted (full : Bool) (c : Cfg) (σ : Spec) (h : Nat) (op : Op) : Spec :=
  match σ.ref h with
  | .ref k => if !full && op == .get && op.consumes c h && c.invalidates then { σ with ref := upd σ.ref h (.spent k) } else σ
  | _ => σ

def check (b : Bool) (v : Verdict Spec) : Verdict Spec := if b then v else .illegal
def require (b : Bool) (v : Verdict Spec) : Verdict Spec := if b then v else .undefined

def next (full : Bool) (c : Cfg) (σ : Spec) : Event → Verdict Spec
  | .delivered k o => require (full || o != .exn none) <| check (σ.cell k).out.isNone <| .ok { σ with cell := upd σ.cell k { σ.cell k with out := some o } }
  | .obtained k h => require (σ.quiet h) <| check (!(σ.cell k).given && !c.shared h) <|
      .ok { σ with cell := upd σ.cell k { σ.cell k with given := true }, ref := upd σ.ref h (.ref k) }
  | .exceptional k h e => require (σ.quiet h && (full || e != none)) <| check (!(σ.cell k).given && (σ.cell k).out.isNone) <|
      .ok { σ with cell := upd σ.cell k { given := true, out := some (.exn e), taken := false }, ref := upd σ.ref h (.ref k) }
  | .moved src dst => require (σ.movable full c src dst) <| .ok { σ with ref := upd (upd σ.ref dst (σ.ref src)) src .none }
  | .copied src dst => require (σ.quiet dst) <| check (c.shared src && c.shared dst) <| .ok { σ with ref := upd σ.ref dst (σ.ref src) }
  | .swapped a b => require (σ.quiet a && σ.quiet b) <| check (c.shared a == c.shared b) <| .ok { σ with ref := upd (upd σ.ref a (σ.ref b)) b (σ.ref a) }
  | .destroyed h => require (σ.quiet h) <| .ok { σ with ref := upd σ.ref h .none }
  | .isValid _ h r => require (σ.readable c h) <| check (r == (match σ.ref h with | .ref _ => true | _ => false)) <| .ok σ
  | .state _ h r => require (σ.readable c h) <| check (r == fstate σ h) <| .ok σ
  | .hasValue _ h r => require (σ.readable c h) <| check (r == (match σ.outcome h with | some (.value _) => true | _ => false)) <| .ok σ
  | .hasException _ h r => require (σ.readable c h) <| check (r == (match σ.outcome h with | some (.exn _) => true | _ => false)) <| .ok σ
  | .called t h op => require (if op.consumes c h then σ.quiet h else σ.readable c h) <| check (σ.busy.all fun x => x.1 != t) <| .ok { σ with busy := (t, h, op) :: σ.busy }
  | .returned t h op r =>
    check (σ.busy.contains (t, h, op)) <|
    let σ' := { σ with busy := σ.busy.filter fun x => x.1 != t }
    match r with
    | .interrupted => check (σ.ref h != .none) <| .ok (σ'.interrupted full c h op)
    | .timeout => check (op == .waitFor && σ.ref h != .none && (σ.outcome h).isNone) <| .ok σ'
    | r => check (expected full c σ h op == some r) <| .ok (σ'.give c h op)

end Verif.FutureHandle
