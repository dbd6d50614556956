import Verif.Continuation.Model
/-!
# Specification of continuations and deferred futures

The events of all threads, in their order. With `strict`, no thread fails to start and no executor refuses work.

* A function begins at most once; that of a continuation only when its antecedent is ready.
* The function of a deferred future, or of a deferred continuation, begins only in a thread that is waiting for it, or for a deferred continuation that depends on it.
* A function that ends makes its future ready; from then on every wait returns its outcome, and `is_ready` is true.
-/

namespace Verif.Continuation

inductive Busy where
  | inFn (c : Nat)
  | inWait (i : Nat)
deriving DecidableEq, Repr

structure Spec where
  n : Nat := 0
  kind : Nat → Kind := fun _ => .promise
  out : Nat → Option Out := fun _ => none
  begun : Nat → Bool := fun _ => false
  busy : Nat → List Busy := fun _ => []

def Spec.init : Spec := {}

/-- What a wait for `i` may have to execute: `i` and, if `i` is a deferred continuation, what a wait for its parent may have to execute. -/
def chain (kind : Nat → Kind) : Nat → Nat → List Nat
  | 0, i => [i]
  | f + 1, i => i :: (match kind i with
    | .cont p .deferred => chain kind f p
    | _ => [])

/-- Is the thread waiting for `c`, or for something for which `c` has to be executed? -/
def wanted (kind : Nat → Kind) (c : Nat) : List Busy → Bool
  | .inWait i :: _ => decide (c ∈ chain kind i i)
  | _ => false

/-- May function `c` begin in a thread? -/
def mayBegin (σ : Spec) (t c : Nat) : Bool :=
  match σ.kind c with
  | .promise => false
  | .spawned => true
  | .deferred => wanted σ.kind c (σ.busy t)
  | .cont p pol => (σ.out p).isSome && (pol != .deferred || wanted σ.kind c (σ.busy t))

def next (strict : Bool) (σ : Spec) : Event → Verdict Spec
  | .created _ i k =>
    if i = σ.n ∧ (k = .promise ∨ k = .spawned ∨ k = .deferred) then .ok { σ with n := σ.n + 1, kind := upd σ.kind i k } else .illegal
  | .attached _ c p pol => if c = σ.n ∧ p < σ.n then .ok { σ with n := σ.n + 1, kind := upd σ.kind c (.cont p pol) } else .illegal
  | .thenRet _ c => if c < σ.n then .ok σ else .illegal
  | .ready _ i o => if i < σ.n ∧ σ.kind i = .promise ∧ σ.out i = none then .ok { σ with out := upd σ.out i (some o) } else .illegal
  | .setRet _ i => if (σ.out i).isSome then .ok σ else .illegal
  | .satisfied _ i => if σ.kind i = .promise ∧ (σ.out i).isSome then .ok σ else .illegal
  | .began t c => if c < σ.n ∧ σ.begun c = false ∧ mayBegin σ t c then .ok { σ with begun := upd σ.begun c true, busy := upd σ.busy t (.inFn c :: σ.busy t) } else .illegal
  | .ended t c o =>
    match σ.busy t with
    | .inFn d :: rest => if d = c ∧ σ.out c = none then .ok { σ with out := upd σ.out c (some o), busy := upd σ.busy t rest } else .illegal
    | _ => .illegal
  | .waits t i => if i < σ.n then .ok { σ with busy := upd σ.busy t (.inWait i :: σ.busy t) } else .illegal
  | .waited t i o =>
    match σ.busy t with
    | .inWait j :: rest => if j = i ∧ σ.out i = some o then .ok { σ with busy := upd σ.busy t rest } else .illegal
    | _ => .illegal
  | .polled _ i b => if i < σ.n ∧ b = (σ.out i).isSome then .ok σ else .illegal
  | .thenThrew _ _ => if strict then .illegal else .ok σ
  | .setThrew _ i => if strict = false ∧ (σ.out i).isSome then .ok σ else .illegal
  | .replaced _ c => if strict = false ∧ (σ.out c).isSome then .ok { σ with out := upd σ.out c (some .noThread) } else .illegal

end Verif.Continuation
