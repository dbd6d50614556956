import Verif.Thread.Model
/-!
# What thread objects promise
-/

namespace Verif.Thread

/-- The call a thread is inside. -/
inductive Call where
  | idle
  | join (o : Nat) (timed : Bool)
  /-- detaching the thread (if any) -/
  | detach (t : Option Nat)
  | asg (t : Option Nat) (dst src : Nat)
deriving DecidableEq, Repr

/-- The call is still using object `o`. -/
def Call.uses (o : Nat) : Call → Bool
  | .idle => false
  | .join o' _ => o' == o
  | .detach _ => false
  | .asg _ d s => d == o || s == o

structure SThr where
  /-- its function has returned -/
  fin : Bool := false
  /-- it has been joined or detached at the operating system -/
  rel : Bool := false
  /-- a join for it has succeeded -/
  ok : Bool := false
  call : Call := .idle

structure Sys where
  /-- the thread each object holds -/
  slots : Nat → Option Nat := fun _ => none
  thr : Nat → SThr := fun _ => {}
  n : Nat := 1

/-- Some thread is inside a call that uses object `o`. -/
def Sys.busy (σ : Sys) (o : Nat) : Bool := (List.range σ.n).any fun c => (σ.thr c).call.uses o

def Sys.setCall (σ : Sys) (c : Nat) (k : Call) : Sys := { σ with thr := upd σ.thr c { σ.thr c with call := k } }

/-- `strict`: clients that use an object while another thread is using it are outside the contract (in C++ this is a data race). Then, in addition: every thread is
seen to have completed by at most one join, the object then held it; and a thread whose object was detached has been detached when that call returns. -/
def next (strict : Bool) (cfg : Cfg) (σ : Sys) : Event → Verdict Sys
  | .started _ o t =>
    if strict && σ.busy o then .undefined
    else if t = σ.n ∧ σ.slots o = none then .ok { σ with n := σ.n + 1, slots := upd σ.slots o (some t), thr := upd σ.thr t {} } else .illegal
  | .startFailed _ o => if strict && σ.busy o then .undefined else .ok σ
  | .startedDetached _ t => if t = σ.n then .ok { σ with n := σ.n + 1, thr := upd σ.thr t { rel := true } } else .illegal
  | .joinCall c o timed =>
    if strict && σ.busy o then .undefined
    else if σ.slots o = some c then .illegal                  -- self-join must be refused
    else .ok (σ.setCall c (.join o timed))
  | .joinSelf c o => if strict && σ.busy o then .undefined else if σ.slots o = some c then .ok σ else .illegal
  | .joinNone c o => if (∃ b, (σ.thr c).call = .join o b) ∧ σ.slots o = none then .ok (σ.setCall c .idle) else .illegal
  | .joinTimeout c o => if (σ.thr c).call = .join o true then .ok (σ.setCall c .idle) else .illegal
  | .joinInterrupted c o => if ∃ b, (σ.thr c).call = .join o b then .ok (σ.setCall c .idle) else .illegal
  | .joinOk c o t =>
    -- only after the function has returned, with its resources released
    if (∃ b, (σ.thr c).call = .join o b) ∧ (σ.thr t).fin = true ∧ (σ.thr t).rel = true ∧
        (strict = true → σ.slots o = some t ∧ (σ.thr t).ok = false) then
      let σ := σ.setCall c .idle
      .ok { σ with slots := if σ.slots o = some t then upd σ.slots o none else σ.slots, thr := upd σ.thr t { σ.thr t with ok := true } }
    else .illegal
  | .detachCall c o =>
    if strict && σ.busy o then .undefined
    else .ok ({ σ with slots := upd σ.slots o none }.setCall c (.detach (σ.slots o)))
  | .detachRet c =>
    match (σ.thr c).call with
    | .detach t => if strict = true → ∀ u ∈ t, (σ.thr u).rel = true then .ok (σ.setCall c .idle) else .illegal
    | _ => .illegal
  | .asgCall c d s =>
    if strict && (σ.busy d || σ.busy s) then .undefined
    else .ok ({ σ with slots := upd σ.slots d none }.setCall c (.asg (σ.slots d) d s))
  | .asgRet c d s =>
    match (σ.thr c).call with
    | .asg t d' s' =>
      if d' = d ∧ s' = s ∧ (strict = true → ∀ u ∈ t, (σ.thr u).rel = true) then
        .ok ({ σ with slots := upd (upd σ.slots d (σ.slots s)) s none }.setCall c .idle)
      else .illegal
    | _ => .illegal
  | .moved _ d s =>
    if strict && (σ.busy d || σ.busy s) then .undefined
    else .ok { σ with slots := upd (upd σ.slots d (σ.slots s)) s none }
  | .swapped _ a b =>
    if strict && (σ.busy a || σ.busy b) then .undefined
    else .ok { σ with slots := upd (upd σ.slots a (σ.slots b)) b (σ.slots a) }
  | .joinable _ o b => if strict && σ.busy o then .undefined else if b = (σ.slots o).isSome then .ok σ else .illegal
  | .terminated _ o => if (cfg.dtor || cfg.assign) = true ∧ (σ.slots o).isSome then .ok σ else .illegal
  -- a thread is joined or detached at the operating system at most once, and joined only after its function has returned
  | .natJoin _ t => if (σ.thr t).rel = false ∧ (σ.thr t).fin = true then .ok { σ with thr := upd σ.thr t { σ.thr t with rel := true } } else .illegal
  | .natDetach _ t => if t < σ.n ∧ (σ.thr t).rel = false then .ok { σ with thr := upd σ.thr t { σ.thr t with rel := true } } else .illegal
  | .fin t => if t < σ.n ∧ (σ.thr t).fin = false then .ok { σ with thr := upd σ.thr t { σ.thr t with fin := true } } else .illegal

end Verif.Thread
