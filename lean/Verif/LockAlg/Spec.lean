import Verif.LockAlg.Model
/-! # What a call may do to lockables -/

namespace Verif.LockAlg

/-- The state is the list of lockables the call holds. It may call `lock()`, which can block, only while it holds nothing, and may unlock only what it
holds. -/
def specNext (held : List Nat) : Op → Verdict (List Nat)
  | .lock m ok => if held = [] then .ok (if ok then [m] else []) else .illegal
  | .tryLock m r => .ok (if r = .yes then m :: held else held)
  | .unlock m => if m ∈ held then .ok (held.erase m) else .illegal

/-- The operations `tr`, done by a call that holds nothing at first, are allowed and leave it holding `held`. -/
def Leaves (tr : Trace) (held : List Nat) : Prop := specState specNext [] tr = some held

/-- The results recorded in a history are those the lockables gave. -/
def Faithful (env : Env) (tr : Trace) : Prop :=
  ∀ pre op post, tr = pre ++ op :: post →
    match op with
    | .lock m ok => env.lock pre m = ok
    | .tryLock m r => env.tryLock pre m = r
    | .unlock _ => True

end Verif.LockAlg
