import Verif.Core.Run
/-!
# What a user may rely on about the life of the data of a thread

Written without reference to the model.

The *data* of a thread created by the library are the copies of the function and of the arguments given to the constructor of `boost::thread`, and what the library keeps for
the thread (its thread-specific pointers, its exit functions). A thread not created by the library gets data, without a function, when it first needs some. Data are numbered in the
order in which they come into being; so are threads. A *reference* is anything of the client that refers to data: a `boost::thread` object, a `thread::id` (where
`thread::id`s refer to data), a running call on such an object. References have names, a new one for each.
-/

namespace Verif.Lifetime

inductive Event where
  /-- a constructor of `boost::thread` has copied its arguments into the new data `d`; the object being constructed is the reference `o` -/
  | made (o d : Nat)
  /-- the system has refused to create a thread for `d`: the constructor throws -/
  | refused (d : Nat)
  /-- thread `t` calls the function in `d` -/
  | began (t d : Nat)
  /-- the function in `d` has returned; the exit functions follow, and the cleanup functions of the thread-specific pointers -/
  | ended (d : Nat)
  /-- thread `t`, which has not been created by the library (or has finished with its own data), has got the data `d` -/
  | got (t d : Nat)
  /-- thread `t` has finished with the data `d` -/
  | over (t d : Nat)
  /-- thread `t` has come to its end with the data `d` -/
  | abandoned (t d : Nat)
  /-- there is a new reference `o'` to what `o` refers to -/
  | copied (o o' : Nat)
  /-- `this_thread::get_id()` in thread `t`, whose data are `d`: a new reference `o` -/
  | self (t d o : Nat)
  /-- the reference `o` is given up: `join`, `detach`, the destructor or the move assignment of the object, the end of the call on it -/
  | dropped (o : Nat)
  /-- thread `t` has destroyed `d` -/
  | destroyed (t d : Nat)
  /-- the data `d` have been used although they have been destroyed, or are about to be -/
  | stale (d : Nat)
  /-- thread `t` has begun to clean up the data `d` it got, because it is ending -/
  | round (t d : Nat)
  /-- thread `t` executes no more code -/
  | gone (t : Nat)
deriving DecidableEq, Repr

/-- What the thread of some data is doing with them. -/
inductive Use where
  /-- the constructor has not returned or the thread has not come to call the function -/
  | starting
  /-- in the function -/
  | running (t : Nat)
  /-- in the exit functions -/
  | ending (t : Nat)
  /-- data of a thread not created by the library -/
  | kept (t : Nat)
  /-- nothing any more; `over`, `refused` -/
  | none
  /-- the thread ended with them -/
  | lost
deriving DecidableEq, Repr

structure Spec where
  /-- the number of data that have come into being -/
  n : Nat
  use : Nat → Use
  /-- destroyed -/
  dead : Nat → Bool
  /-- the references: name and data -/
  refs : List (Nat × Nat)

def start : Spec := { n := 0, use := fun _ => .none, dead := fun _ => false, refs := [] }

/-- `f` with a new value at `i`. -/
def upd {α : Type} (f : Nat → α) (i : Nat) (x : α) : Nat → α := fun j => if j = i then x else f j

/-- Thread `t` is using data in this way. -/
def Use.by (t : Nat) : Use → Bool
  | .running u => u == t
  | .ending u => u == t
  | .kept u => u == t
  | _ => false

/-- The rules: the function is called once, in data that exist; data are destroyed once, when their thread has nothing to do with them any more and nobody refers to them, and not used
afterwards; a thread does not go while it is using data. -/
def next (σ : Spec) : Event → Verdict Spec
  | .made o d =>
    if σ.refs.any (fun r => r.1 == o) then .illegal
    else if d = σ.n then .ok { σ with n := σ.n + 1, use := upd σ.use d .starting, refs := (o, d) :: σ.refs } else .illegal
  | .refused d => if d < σ.n ∧ σ.use d = .starting ∧ σ.dead d = false then .ok { σ with use := upd σ.use d .none } else .illegal
  | .began t d => if d < σ.n ∧ σ.use d = .starting ∧ σ.dead d = false then .ok { σ with use := upd σ.use d (.running t) } else .illegal
  | .ended d =>
    if d < σ.n ∧ σ.dead d = false then
      match σ.use d with
      | .running t => .ok { σ with use := upd σ.use d (.ending t) }
      | _ => .illegal
    else .illegal
  | .got t d => if d = σ.n then .ok { σ with n := σ.n + 1, use := upd σ.use d (.kept t) } else .illegal
  | .over t d => if d < σ.n ∧ σ.dead d = false ∧ (σ.use d = .ending t ∨ σ.use d = .kept t) then .ok { σ with use := upd σ.use d .none } else .illegal
  | .abandoned t d => if d < σ.n ∧ σ.dead d = false ∧ σ.use d = .kept t then .ok { σ with use := upd σ.use d .lost } else .illegal
  | .copied o o' =>
    if σ.refs.any (fun r => r.1 == o') then .illegal
    else match σ.refs.find? (fun r => r.1 == o) with
      | some r => if σ.dead r.2 then .illegal else .ok { σ with refs := (o', r.2) :: σ.refs }
      | none => .illegal
  | .self t d o =>
    if σ.refs.any (fun r => r.1 == o) then .illegal
    else if d < σ.n ∧ σ.dead d = false ∧ (σ.use d).by t then .ok { σ with refs := (o, d) :: σ.refs } else .illegal
  | .dropped o =>
    if σ.refs.any (fun r => r.1 == o) then .ok { σ with refs := σ.refs.filter (fun r => r.1 != o) } else .illegal
  | .destroyed _ d =>
    if d < σ.n ∧ σ.dead d = false ∧ σ.use d = .none ∧ σ.refs.all (fun r => r.2 != d) then .ok { σ with dead := upd σ.dead d true } else .illegal
  | .stale _ => .illegal
  | .round t d => if d < σ.n ∧ σ.dead d = false ∧ σ.use d = .kept t then .ok σ else .illegal
  | .gone t => if ∀ d, d < σ.n → (σ.use d).by t = false then .ok σ else .illegal

end Verif.Lifetime
