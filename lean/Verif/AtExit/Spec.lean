import Verif.Core.Run
/-!
# What a user of the `…_at_thread_exit` functions may rely on

Written without reference to the model. Threads, mutexes, condition variables and promises are numbered.
-/

namespace Verif.AtExit

/-- The result put into a promise. -/
inductive Res where
  | val (v : Nat)
  | exc (e : Nat)
  /-- the promise was destroyed without a result -/
  | broken
deriving DecidableEq, Repr

/-- What has been asked to be done at the end of a thread. -/
inductive Eff where
  | unlock (m : Nat)
  | notify (c : Nat)
  | ready (p : Nat)
deriving DecidableEq, Repr

inductive Event where
  /-- `w` has created thread `u`: one thread object refers to it -/
  | start (w u : Nat)
  /-- the function of thread `u` has returned, its exit functions have run, its thread-specific pointers are reset -/
  | finish (u : Nat)
  /-- thread `u` executes no more code -/
  | gone (u : Nat)
  /-- `w` has begun to hold another reference to thread `u`: a running call on the thread object, a `thread::id` -/
  | copied (w u : Nat)
  /-- `w` has given up a reference to thread `u`: `join`, `detach`, the end of a running call on the object -/
  | drop (w u : Nat)
  /-- the call in which `w` gave up the reference has returned -/
  | ret (w u : Nat)
  /-- `notify_all_at_thread_exit(c, unique_lock(m))` has returned in thread `u` -/
  | reg (u c m : Nat)
  /-- `set_value_at_thread_exit`, `set_exception_at_thread_exit` have returned in thread `u` -/
  | stored (u p : Nat) (r : Res)
  /-- `set_value`, `set_exception` have returned in thread `w` -/
  | setNow (w p : Nat) (r : Res)
  /-- one of these has thrown `promise_already_satisfied` -/
  | already (w p : Nat)
  /-- the promise `p` has been destroyed -/
  | destroyed (w p : Nat)
  /-- `get` of a future of the promise `p` has returned or thrown `r` -/
  | got (w p : Nat) (r : Res)
  | locked (w m : Nat)
  | unlocked (w m : Nat)
  /-- the effect `f` asked for by thread `u` has been carried out by thread `x` -/
  | eff (x u : Nat) (f : Eff)
deriving DecidableEq, Repr

/-! ## What is asked for, what is done -/

/-- The effects thread `u` has asked for: the mutexes with their condition variables, in the order of the calls, … -/
def askedNotify (u : Nat) : List Event → List Eff
  | [] => []
  | .reg v c m :: h => if v = u then .unlock m :: .notify c :: askedNotify u h else askedNotify u h
  | _ :: h => askedNotify u h

/-- … then the promises, in the order of the calls. -/
def askedReady (u : Nat) : List Event → List Eff
  | [] => []
  | .stored v p _ :: h => if v = u then .ready p :: askedReady u h else askedReady u h
  | _ :: h => askedReady u h

def asked (u : Nat) (h : List Event) : List Eff := askedNotify u h ++ askedReady u h

/-- The effects that have been carried out on behalf of thread `u`. -/
def effects (u : Nat) : List Event → List Eff
  | [] => []
  | .eff _ v f :: h => if v = u then f :: effects u h else effects u h
  | _ :: h => effects u h

/-- The references to thread `u` held outside of the thread: begun, given up, given up by a call that has returned. -/
def begun (u : Nat) : List Event → Nat
  | [] => 0
  | .start _ v :: h => (if v = u then 1 else 0) + begun u h
  | .copied _ v :: h => (if v = u then 1 else 0) + begun u h
  | _ :: h => begun u h

def dropped (u : Nat) : List Event → Nat
  | [] => 0
  | .drop _ v :: h => (if v = u then 1 else 0) + dropped u h
  | _ :: h => dropped u h

def returned (u : Nat) : List Event → Nat
  | [] => 0
  | .ret _ v :: h => (if v = u then 1 else 0) + returned u h
  | _ :: h => returned u h

/-- Thread `u` was created by the library. -/
def created (u : Nat) (h : List Event) : Prop := ∃ w, Event.start w u ∈ h

/-! ## Mutexes and promises -/

/-- A mutex: free, locked by a thread, locked until the end of a thread. -/
inductive Mx where
  | free
  | held (w : Nat)
  | handed (u : Nat)
deriving DecidableEq, Repr

/-- A promise: without a result, with a result that is not visible yet, with a visible result. -/
inductive Pr where
  | unset
  /-- visible at the end of thread `u` -/
  | stored (u : Nat) (r : Res)
  | ready (r : Res)
deriving DecidableEq, Repr

def upd {α : Type} (f : Nat → α) (i : Nat) (a : α) : Nat → α := fun j => if j = i then a else f j

structure MSpec where
  /-- created by the library -/
  lib : Nat → Bool
  mx : Nat → Mx

def MSpec.start : MSpec := { lib := fun _ => false, mx := fun _ => .free }

/-- Mutexes: a mutex given to `notify_all_at_thread_exit` stays locked until the effect of that call. `lenient`: except
that a thread not created by the library may give it up at once. -/
def nextM (lenient : Bool) (σ : MSpec) : Event → Verdict MSpec
  | .start _ u => .ok { σ with lib := upd σ.lib u true }
  | .locked w m => if σ.mx m = .free then .ok { σ with mx := upd σ.mx m (.held w) } else .illegal
  | .unlocked w m =>
    if σ.mx m = .held w ∨ (lenient = true ∧ σ.mx m = .handed w ∧ σ.lib w = false) then .ok { σ with mx := upd σ.mx m .free } else .illegal
  | .reg u _ m => if σ.mx m = .held u then .ok { σ with mx := upd σ.mx m (.handed u) } else .illegal
  | .eff _ u (.unlock m) => if σ.mx m = .handed u then .ok { σ with mx := upd σ.mx m .free } else .illegal
  | _ => .ok σ

/-- Promises: a promise takes one result, which becomes visible by the effect of the call (or at once for `set_value`,
`set_exception`) and is what every `get` gives. `lenient`: nothing is promised when a promise that has a result is given
another one. -/
def nextP (lenient : Bool) (pr : Nat → Pr) : Event → Verdict (Nat → Pr)
  | .stored u p r =>
    match pr p with
    | .unset => .ok (upd pr p (.stored u r))
    | _ => if lenient then .undefined else .illegal
  | .setNow _ p r =>
    match pr p with
    | .unset => .ok (upd pr p (.ready r))
    | _ => if lenient then .undefined else .illegal
  | .already _ p => if pr p = .unset then .illegal else .ok pr
  | .destroyed _ p => if pr p = .unset then .ok (upd pr p (.ready .broken)) else .ok pr
  | .eff _ u (.ready p) =>
    match pr p with
    | .stored v r => if u = v then .ok (upd pr p (.ready r)) else .illegal
    | _ => .illegal
  | .got _ p r => if pr p = .ready r then .ok pr else .illegal
  | _ => .ok pr

end Verif.AtExit
