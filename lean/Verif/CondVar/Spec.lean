import Verif.CondVar.Model
/-!
# Specification of condition variables and interruption

An atomic condition variable: releasing the lock and joining the waiters is one event, a notification that comes later in the history than this event finds the
thread among the waiters. Interruption is one flag per thread, set by `interrupt()`, consumed by `thread_interrupted`.
-/

namespace Verif.CondVar

inductive Phase where
  /-- not inside a wait, or has not released the lock yet -/
  | out
  /-- has released `m` and waits for a notification of `c` -/
  | waiting (c m : Nat) (timed : Bool)
  /-- woken, has to get `m` back -/
  | woken (m : Nat) (to : Bool)
  /-- has `m` back, has not returned yet -/
  | back (m : Nat) (to : Bool)
deriving DecidableEq, Repr

structure SThr where
  phase : Phase
  /-- an interruption has been requested and not been delivered -/
  pending : Bool
  enabled : Bool
  /-- live scopes, innermost first: `some was` a disabler which found interruption in the state `was`, `none` a restorer -/
  scopes : List (Option Bool)
deriving DecidableEq, Repr

structure SState where
  ts : List SThr
  mx : Nat → Option Nat

def SThr.new : SThr := { phase := .out, pending := false, enabled := true, scopes := [] }
def specInit (n : Nat) : SState := { ts := List.replicate n SThr.new, mx := fun _ => none }

def SThr.waits (c : Nat) (x : SThr) : Bool :=
  match x.phase with
  | .waiting c' _ _ => c' == c
  | _ => false

/-- A thread waiting on `c` is woken. -/
def SThr.wake (c : Nat) (x : SThr) : SThr :=
  match x.phase with
  | .waiting c' m _ => if c' = c then { x with phase := .woken m false } else x
  | _ => x

/-- An interruption point executed now throws. -/
def SThr.due (x : SThr) : Bool := x.enabled && x.pending

def allow (b : Bool) (q : SState) : Verdict SState := if b then .ok q else .illegal

def SState.set (q : SState) (t : Nat) (x : SThr) : SState := { q with ts := q.ts.set t x }

def next (q : SState) : Event → Verdict SState
  | .locked t m => allow (q.mx m == none) { q with mx := upd q.mx m (some t) }
  | .unlocked t m => allow (q.mx m == some t) { q with mx := upd q.mx m none }
  | .waitBegan t c m timed =>
    match q.ts[t]? with
    | some x =>
      allow (x.phase == .out && q.mx m == some t) { (q.set t { x with phase := .waiting c m timed }) with mx := upd q.mx m none }
    | none => .illegal
  | .notifiedOne _ c none => allow (q.ts.all fun y => !y.waits c) q
  | .notifiedOne _ c (some v) =>
    match q.ts[v]? with
    | some y => allow (y.waits c) (q.set v (y.wake c))
    | none => .illegal
  | .notifiedAll _ c => .ok { q with ts := q.ts.map (SThr.wake c) }
  | .broadcast c => .ok { q with ts := q.ts.map (SThr.wake c) }
  | .spurious t =>
    match q.ts[t]? with
    | some x =>
      match x.phase with
      | .waiting _ m _ => .ok (q.set t { x with phase := .woken m false })
      | _ => .illegal
    | none => .illegal
  | .timedOut t =>
    match q.ts[t]? with
    | some x =>
      match x.phase with
      | .waiting _ m true => .ok (q.set t { x with phase := .woken m true })
      | _ => .illegal
    | none => .illegal
  | .relocked t m =>
    match q.ts[t]? with
    | some x =>
      match x.phase with
      | .woken m' to => allow (m == m' && q.mx m == none) { (q.set t { x with phase := .back m to }) with mx := upd q.mx m (some t) }
      | _ => .illegal
    | none => .illegal
  | .returned t to =>
    match q.ts[t]? with
    | some x =>
      match x.phase with
      | .back m to' => allow (to == to' && q.mx m == some t && !x.due) (q.set t { x with phase := .out })
      | _ => .illegal
    | none => .illegal
  | .interrupted t =>
    match q.ts[t]? with
    | some x =>
      match x.phase with
      | .back m _ => allow (q.mx m == some t && x.due) (q.set t { x with phase := .out, pending := false })
      | .out => allow x.due (q.set t { x with pending := false })
      | _ => .illegal
    | none => .illegal
  | .requested _ u =>
    match q.ts[u]? with
    | some y => .ok (q.set u { y with pending := true })
    | none => .illegal
  | .passed t =>
    match q.ts[t]? with
    | some x => allow (!x.due) q
    | none => .illegal
  | .requestedIs _ u b =>
    match q.ts[u]? with
    | some y => allow (b == y.pending) q
    | none => .illegal
  | .enabledIs t b =>
    match q.ts[t]? with
    | some x => allow (b == x.enabled) q
    | none => .illegal
  | .disable t =>
    match q.ts[t]? with
    | some x => .ok (q.set t { x with enabled := false, scopes := some x.enabled :: x.scopes })
    | none => .illegal
  | .restore t d =>
    match q.ts[t]? with
    | some x =>
      match x.scopes.reverse[d]? with
      | some (some was) => .ok (q.set t { x with enabled := was || x.enabled, scopes := none :: x.scopes })
      | _ => .illegal
    | none => .illegal
  | .scopeEnd t =>
    match q.ts[t]? with
    | some x =>
      match x.scopes with
      | some was :: rest => .ok (q.set t { x with enabled := was, scopes := rest })
      | none :: rest => .ok (q.set t { x with enabled := false, scopes := rest })
      | [] => .illegal
    | none => .illegal

end Verif.CondVar
