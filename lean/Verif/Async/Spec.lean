import Verif.Core.Run
/-!
# What a user of `async` may rely on

Written without reference to the model. A history tells when `async` has been called and has returned or thrown, when the function has begun and ended, when the thread made
for it has ended, which futures have been copied and destroyed, and what `get`, `wait` and `is_ready` have returned. Calls of `async` are numbered.
-/

namespace Verif.Async

/-- What the function has ended with. -/
inductive Out where
  | val (v : Nat)
  | exc (e : Nat)
deriving DecidableEq, Repr

/-- How the function is to be run. -/
inductive Kind where
  /-- `async(launch::async, f)` -/
  | thread
  /-- `async(ex, f)` -/
  | executor
deriving DecidableEq, Repr

inductive Event where
  /-- thread `t` has called `async`; this is call `i` -/
  | asyncs (t i : Nat) (k : Kind)
  /-- it has returned a future -/
  | asyncRet (t i : Nat)
  /-- it has thrown: the thread could not be started, or the executor has refused the task -/
  | threw (t i : Nat)
  /-- the function of call `i` has begun in thread `t`, has ended -/
  | began (t i : Nat)
  | ended (i : Nat) (o : Out)
  /-- the thread of call `i` has ended, with its thread-specific data destroyed -/
  | exited (i : Nat)
  /-- the executor has destroyed the task without calling it -/
  | discarded (i : Nat)
  /-- thread `t` has copied a future (`shared_future`) -/
  | copied (t i : Nat)
  /-- thread `t` has begun to destroy a future; the destructor has returned -/
  | drops (t i : Nat)
  | dropped (t i : Nat)
  /-- the stored result has been destroyed -/
  | destroyed (i : Nat)
  /-- thread `t` has called `wait`, `get` -/
  | waits (t i : Nat)
  | gets (t i : Nat)
  | waited (t i : Nat)
  | got (t i : Nat) (o : Out)
  /-- `is_ready` has returned `b` -/
  | polled (t i : Nat) (b : Bool)
  /-- access to a destroyed object -/
  | bad (i : Nat)
  /-- two threads have accessed one object without synchronisation -/
  | raced (i : Nat)
deriving DecidableEq, Repr

/-- The thread that has made a call, or that has returned from one. -/
def Event.thread : Event → Option Nat
  | .asyncs t _ _ | .asyncRet t _ | .threw t _ | .copied t _ | .drops t _ | .dropped t _ | .waits t _ | .gets t _ | .waited t _ | .got t _ _ | .polled t _ _ => some t
  | .began _ _ | .ended _ _ | .exited _ | .discarded _ | .destroyed _ | .bad _ | .raced _ => none

/-- How far a call has come. -/
inductive Phase where
  | none
  | called
  | failed
  | running
  | ended (o : Out)
deriving DecidableEq, Repr

/-- What a history says about one call. -/
structure Call where
  phase : Phase := .none
  /-- `async` has returned a future -/
  returned : Bool := false
  exited : Bool := false
  /-- futures the user has -/
  futs : Nat := 0
  /-- destructors of futures that have not returned -/
  leaving : Nat := 0
  destroyed : Bool := false
deriving DecidableEq, Repr

def set (σ : Nat → Call) (i : Nat) (c : Call) : Nat → Call := fun j => if j = i then c else σ j

def Phase.isEnded : Phase → Bool
  | .ended _ => true
  | _ => false

/-- The contract: the function is called at most once, and only if `async` does not throw; what `get` returns is what the function has ended with; a future says that it is ready, and
`wait` returns, only after the function has ended; the result lives as long as there is a future, and is destroyed at most once; nothing is accessed after its destruction. (Whether
`raced` happens is stated separately.) -/
def next (σ : Nat → Call) : Event → Verdict (Nat → Call)
  | .asyncs _ i _ => if (σ i).phase = .none then .ok (set σ i { σ i with phase := .called }) else .illegal
  | .asyncRet _ i =>
    if (σ i).phase ≠ .none ∧ (σ i).returned = false ∧ (σ i).destroyed = false then .ok (set σ i { σ i with returned := true, futs := (σ i).futs + 1 }) else .illegal
  | .threw _ i => if (σ i).phase = .called ∧ (σ i).returned = false then .ok (set σ i { σ i with phase := .failed }) else .illegal
  | .began _ i => if (σ i).phase = .called then .ok (set σ i { σ i with phase := .running }) else .illegal
  | .ended i o => if (σ i).phase = .running then .ok (set σ i { σ i with phase := .ended o }) else .illegal
  | .exited i => if (σ i).phase.isEnded = true ∧ (σ i).exited = false then .ok (set σ i { σ i with exited := true }) else .illegal
  | .discarded i => if (σ i).phase = .called then .ok (set σ i { σ i with phase := .failed }) else .illegal
  | .copied _ i => if 0 < (σ i).futs ∧ (σ i).destroyed = false then .ok (set σ i { σ i with futs := (σ i).futs + 1 }) else .illegal
  | .drops _ i => if 0 < (σ i).futs then .ok (set σ i { σ i with futs := (σ i).futs - 1, leaving := (σ i).leaving + 1 }) else .illegal
  | .dropped _ i => if 0 < (σ i).leaving then .ok (set σ i { σ i with leaving := (σ i).leaving - 1 }) else .illegal
  | .destroyed i => if (σ i).futs = 0 ∧ (σ i).phase ≠ .none ∧ (σ i).phase ≠ .running ∧ (σ i).destroyed = false then .ok (set σ i { σ i with destroyed := true }) else .illegal
  | .waits _ i | .gets _ i => if 0 < (σ i).futs ∧ (σ i).destroyed = false then .ok σ else .illegal
  | .waited _ i => if (σ i).phase.isEnded = true ∧ (σ i).destroyed = false then .ok σ else .illegal
  | .got _ i o => if (σ i).phase = .ended o ∧ (σ i).destroyed = false then .ok σ else .illegal
  | .polled _ i b => if (σ i).destroyed = false ∧ (b = true → (σ i).phase.isEnded = true) then .ok σ else .illegal
  | .bad _ => .illegal
  | .raced _ => .ok σ

/-- No call has been made. -/
def start : Nat → Call := fun _ => {}

/-- The futures of call `i` that exist after the history `es`. -/
def futures (i : Nat) : List Event → Int
  | [] => 0
  | .asyncRet _ j :: es => (if j = i then 1 else 0) + futures i es
  | .copied _ j :: es => (if j = i then 1 else 0) + futures i es
  | .drops _ j :: es => (if j = i then -1 else 0) + futures i es
  | _ :: es => futures i es

/-- "The associated thread completion synchronizes with … the return from the last function that releases the shared state": when the destructor of the last future of a call returns,
the function has ended. -/
def LastReleaseWaits (es : List Event) : Prop :=
  ∀ es₁ es₂ t i, es = es₁ ++ .dropped t i :: es₂ → futures i es₁ = 0 → ∃ o, .ended i o ∈ es₁

/-- "A call to a non-timed waiting function … shall block until the associated thread has completed, as if joined": for `wait`. -/
def WaitJoins (es : List Event) : Prop :=
  ∀ es₁ es₂ t u i, es = es₁ ++ .waited t i :: es₂ → .asyncs u i .thread ∈ es₁ → .exited i ∈ es₁

/-- The same for `get`. -/
def GetJoins (es : List Event) : Prop :=
  ∀ es₁ es₂ t u i o, es = es₁ ++ .got t i o :: es₂ → .asyncs u i .thread ∈ es₁ → .exited i ∈ es₁

/-- The call that thread `t` is in, if any. -/
def underWay (t : Nat) (es : List Event) : Option Event :=
  es.foldl (fun c e => if e.thread = some t then (match e with
    | .asyncs _ _ _ | .drops _ _ | .waits _ _ | .gets _ _ => some e
    | _ => none) else c) none

end Verif.Async
