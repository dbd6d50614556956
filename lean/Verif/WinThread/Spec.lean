import Verif.Core.Run
/-!
# What a user of joins, sleeps and interruption may rely on

Written without reference to the model. Threads are numbered; a number stands for the thread and for the thread object that refers to it.
Times are in nanoseconds. There are two clocks: the steady one, which never goes back, and the user's, which may be set.
-/

namespace Verif.WinThread

inductive Call where
  | join (u : Nat)
  /-- `try_join_until`; `steady`: the time is one of the steady clock. With another clock also `timed_join(abs_time)`. -/
  | tryJoinUntil (u : Nat) (steady : Bool) (t : Int)
  /-- `try_join_for`, `timed_join(rel_time)` -/
  | tryJoinFor (u : Nat) (d : Int)
  /-- `sleep_for`, `sleep(rel_time)`; `quiet`: in `no_interruption_point` -/
  | sleepFor (quiet : Bool) (d : Int)
  /-- `sleep_until`; with another clock than the steady one also `sleep(abs_time)` -/
  | sleepUntil (quiet steady : Bool) (t : Int)
  /-- `interruption_point` -/
  | point
deriving DecidableEq, Repr

inductive Event where
  /-- `w` has created thread `u` -/
  | start (w u : Nat)
  /-- thread `u` has ended -/
  | ended (u : Nat)
  | called (w : Nat) (c : Call)
  /-- a join returned (`true`) -/
  | joined (w : Nat)
  /-- a timed join returned `false` -/
  | timedOut (w : Nat)
  | slept (w : Nat)
  /-- `interruption_point` returned -/
  | passed (w : Nat)
  /-- the call threw `thread_interrupted` -/
  | interrupted (w : Nat)
  /-- a join with thread `u` threw `resource_deadlock_would_occur` -/
  | selfJoin (w u : Nat)
  /-- a join with thread `u` threw `invalid_argument` -/
  | notJoinable (w u : Nat)
  /-- the times given cannot be represented -/
  | overflow (w : Nat)
  | detached (w u : Nat)
  | joinable (w u : Nat) (b : Bool)
  /-- `interrupt` of thread object `u` -/
  | interrupt (w u : Nat)
  /-- `interruption_requested` of thread object `u` -/
  | asked (w u : Nat) (b : Bool)
  /-- `this_thread::interruption_requested` -/
  | requested (w : Nat) (b : Bool)
  /-- `this_thread::interruption_enabled` -/
  | enabled (w : Nat) (b : Bool)
  /-- a `disable_interruption` object was made -/
  | disable (w : Nat)
  /-- a `restore_interruption` object was made for the disabler that is the `i`th of the thread's live objects, the youngest first -/
  | restore (w i : Nat)
  /-- the youngest of these objects was destroyed -/
  | close (w : Nat)
  | clock (now user : Int)
deriving DecidableEq, Repr

/-- A live object that determines whether its thread may be interrupted. -/
inductive Scope where
  | dis
  /-- a restorer; `b`: the state it restores -/
  | res (b : Bool)
deriving DecidableEq, Repr

/-- The youngest live object says whether the thread may be interrupted. Without any: threads created by the library may, others not. -/
def allowed (lib : Bool) : List Scope → Bool
  | [] => lib
  | .dis :: _ => false
  | .res b :: _ => b

inductive Deadline where
  | never
  | steady (t : Int)
  /-- `seen`: during the call the user's clock has shown `t` or more -/
  | user (t : Int) (seen : Bool)
deriving DecidableEq, Repr

def Call.deadline (now user : Int) : Call → Deadline
  | .join _ => .never
  | .tryJoinUntil _ true t => .steady t
  | .tryJoinUntil _ false t => .user t (decide (t ≤ user))
  | .tryJoinFor _ d => .steady (now + d)
  | .sleepFor _ d => .steady (now + d)
  | .sleepUntil _ true t => .steady t
  | .sleepUntil _ false t => .user t (decide (t ≤ user))
  | .point => .never

def Deadline.reached (now : Int) : Deadline → Bool
  | .never => false
  | .steady t => decide (t ≤ now)
  | .user _ seen => seen

def Deadline.look (user : Int) : Deadline → Deadline
  | .user t seen => .user t (seen || decide (t ≤ user))
  | d => d

/-- An interruption point. -/
def Call.intr : Call → Bool
  | .sleepFor quiet _ => !quiet
  | .sleepUntil quiet _ _ => !quiet
  | _ => true

/-- Does not return normally without having looked for a request. (`sleep_until` a time that has passed returns at once.) -/
def Call.strict : Call → Bool
  | .sleepFor quiet _ => !quiet
  | .sleepUntil quiet steady _ => !quiet && steady
  | _ => true

/-- The thread joined with. -/
def Call.target : Call → Option Nat
  | .join u | .tryJoinUntil u _ _ | .tryJoinFor u _ => some u
  | _ => none

/-- A call that has begun. -/
structure Active where
  call : Call
  dl : Deadline
  /-- when it began an interruption was requested and allowed, and the call must notice it -/
  must : Bool
deriving DecidableEq, Repr

structure STh where
  lib : Bool := false
  fin : Bool := false
  /-- the thread object refers to the thread -/
  obj : Bool := false
  /-- interruption has been requested -/
  pending : Bool := false
  scopes : List Scope := []
  call : Option Active := none

structure Sys where
  n : Nat
  th : Nat → STh
  now : Int
  user : Int

def upd {α : Type} (f : Nat → α) (i : Nat) (x : α) : Nat → α := fun j => if j = i then x else f j

def Sys.set (σ : Sys) (w : Nat) (x : STh) : Sys := { σ with th := upd σ.th w x }

def STh.allowed (x : STh) : Bool := WinThread.allowed x.lib x.scopes

/-- What may be observed. -/
def next (σ : Sys) : Event → Verdict Sys
  | .start _ u => if u = σ.n then .ok { σ.set u { lib := true, obj := true } with n := σ.n + 1 } else .illegal
  | .ended u => if (σ.th u).call = none then .ok (σ.set u { σ.th u with fin := true }) else .illegal
  | .called w c =>
    if (σ.th w).call = none ∧ (∀ u ∈ c.target, u ≠ w ∧ (σ.th u).obj = true) then
      .ok (σ.set w { σ.th w with call := some { call := c, dl := c.deadline σ.now σ.user, must := c.strict && (σ.th w).pending && (σ.th w).allowed } })
    else .illegal
  -- only when the thread has ended
  | .joined w =>
    match (σ.th w).call with
    | some a =>
      match a.call.target with
      | some u =>
        if (σ.th u).fin = true ∧ (σ.th u).obj = true ∧ u ≠ w then
          .ok ((σ.set u { σ.th u with obj := false }).set w { σ.th w with call := none })
        else .illegal
      | none => .illegal
    | none => .illegal
  -- only when the time has come, and not instead of `thread_interrupted`
  | .timedOut w =>
    match (σ.th w).call with
    | some a =>
      if a.call.target.isSome = true ∧ a.dl.reached σ.now = true ∧ a.must = false then .ok (σ.set w { σ.th w with call := none }) else .illegal
    | none => .illegal
  | .slept w =>
    match (σ.th w).call with
    | some a =>
      if a.call.target = none ∧ a.call ≠ .point ∧ a.dl.reached σ.now = true ∧ a.must = false then
        .ok (σ.set w { σ.th w with call := none })
      else .illegal
    | none => .illegal
  | .passed w =>
    match (σ.th w).call with
    | some a => if a.call = .point ∧ a.must = false then .ok (σ.set w { σ.th w with call := none }) else .illegal
    | none => .illegal
  -- only in interruption points, when allowed, once for every request
  | .interrupted w =>
    match (σ.th w).call with
    | some a =>
      if a.call.intr = true ∧ (σ.th w).pending = true ∧ (σ.th w).allowed = true then
        .ok (σ.set w { σ.th w with call := none, pending := false })
      else .illegal
    | none => .illegal
  | .selfJoin w u => if u = w ∧ (σ.th u).obj = true then .ok σ else .illegal
  | .notJoinable _ u => if (σ.th u).obj = false then .ok σ else .illegal
  | .overflow _ => .undefined
  | .detached _ u => .ok (σ.set u { σ.th u with obj := false })
  | .joinable _ u b => if b = (σ.th u).obj then .ok σ else .illegal
  | .interrupt _ u => if (σ.th u).obj = true then .ok (σ.set u { σ.th u with pending := true }) else .ok σ
  | .asked _ u b => if b = ((σ.th u).obj && (σ.th u).pending) then .ok σ else .illegal
  | .requested w b => if b = (σ.th w).pending then .ok σ else .illegal
  | .enabled w b => if b = (σ.th w).allowed then .ok σ else .illegal
  | .disable w => .ok (σ.set w { σ.th w with scopes := .dis :: (σ.th w).scopes })
  -- a restorer is for the disabler around it
  | .restore w i =>
    match i, (σ.th w).scopes with
    | 0, .dis :: r => .ok (σ.set w { σ.th w with scopes := .res (WinThread.allowed (σ.th w).lib r) :: .dis :: r })
    | _, _ => .undefined
  | .close w =>
    match (σ.th w).scopes with
    | _ :: r => .ok (σ.set w { σ.th w with scopes := r })
    | [] => .illegal
  | .clock now user =>
    if σ.now ≤ now then
      .ok { σ with now := now, user := user, th := fun u => { σ.th u with call := (σ.th u).call.map fun a => { a with dl := a.dl.look user } } }
    else .illegal

/-- `n` threads not created by the library. -/
def specInit (n : Nat) (now user : Int) : Sys := { n := n, th := fun _ => {}, now := now, user := user }

end Verif.WinThread
