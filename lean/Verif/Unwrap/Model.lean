import Verif.Core.Run
import Verif.Unwrap.Spec
/-!
# Model of `future<future<R>>::unwrap`

Models `/repo/include/boost/thread/future.hpp`: `unwrap` (5495-5506) and the constructor that calls it (5490-5493), `future_unwrap_shared_state` (5400-5488), `do_continuation`,
`set_continuation_ptr`, `mark_finished_internal` (304-346), `wait_internal` (387-401), `future_deferred_shared_state` (1044-1069).

* Any number of threads and shared states, and futures nested to any depth. Shared states are numbered in the order of their creation. `depth` is the number of futures inside the type of
  the value: 0 for `future<R>`, 1 for `future<future<R>>`.
* Each critical section of a shared state's mutex is one step; between the steps of one thread everything else may happen. The function of a deferred future may make any call, so a
  thread has a stack. A promise stands for whatever makes a state ready, also for the function of `async(launch::async, f)` and of `then`, which end as a promise does (1013-1018).
* Futures are unique and are moved: `held` says that the user has the future. `unwrap`, `get` and storing the future in another take it away. Two threads that use one future at the same
  time race in the user's code, so `get` takes the future when it is called.
* Simplified: a state keeps its value when `get` has moved it out, which no one can see as the future is gone; states are not destroyed; `BOOST_THREAD_FUTURE_BLOCKING` is off; wait
  callbacks, interruption, timed waits and continuations other than those of `unwrap` are not treated (see `Verif.Continuation`, `Verif.Future`).
-/

namespace Verif.Unwrap

def upd {α : Type} (f : Nat → α) (i : Nat) (x : α) : Nat → α := fun j => if j = i then x else f j

@[grind =, simp] theorem upd_apply {α : Type} (f : Nat → α) (i j : Nat) (x : α) : upd f i x j = if j = i then x else f j := rfl

inductive Kind where
  | promise
  | deferred
  /-- `unwrap` on state `w`: the member `wrapped` (5403) -/
  | unwrap (w : Nat)
deriving DecidableEq, Repr

/-- The members of a shared state: `done` with the value or exception, `continuations`, `is_deferred_` (159-172), and `unwrapped` (5404). -/
structure Node where
  kind : Kind := .promise
  depth : Nat := 0
  out : Option Out := none
  conts : List Nat := []
  deferred : Bool := false
  inner : Option Nat := none
deriving DecidableEq, Repr

/-- On whose behalf a list of continuations is being launched. -/
inductive Why where
  /-- `set_value` or `set_exception` on promise `i` -/
  | set (i : Nat)
  /-- the call of `unwrap` that has made `u` -/
  | unwrap (u : Nat)
  /-- a state that became ready otherwise -/
  | other
deriving DecidableEq, Repr

/-- What a thread is doing. -/
inductive Frame where
  /-- running the function of the deferred state `i` -/
  | fn (i : Nat)
  /-- launching the continuations `l` (310-312) -/
  | launch (l : List Nat) (w : Why)
  /-- in `launch_continuation` of `c`, about to lock `j` (5422-5424) -/
  | hook (c j : Nat)
  /-- waiting in `get` for state `i` (387-401) -/
  | wait (i : Nat)
deriving DecidableEq, Repr

structure State where
  n : Nat
  node : Nat → Node
  held : Nat → Bool
  stk : Nat → List Frame

def init : State := { n := 0, node := fun _ => {}, held := fun _ => false, stk := fun _ => [] }

inductive Op where
  | promise (d : Nat)
  | defer (d : Nat)
  | unwrap (w : Nat)
  | set (i : Nat) (o : Out)
  | get (i : Nat)
  | poll (i : Nat)
deriving DecidableEq, Repr

inductive Label where
  | op (t : Nat) (o : Op)
  /-- the function that thread `t` is in ends -/
  | finish (t : Nat) (o : Out)
  /-- thread `t` does what is on top of its stack -/
  | go (t : Nat)
deriving DecidableEq, Repr

/-- Can the thread make a call, i.e. is it in code of the user? -/
def State.free (s : State) (t : Nat) : Bool :=
  match s.stk t with
  | [] => true
  | .fn _ :: _ => true
  | _ => false

/-- Has `o` the type of a value of a future of depth `d`, and does the user own the future in it? -/
def State.fits (s : State) (d : Nat) : Out → Bool
  | .num _ => d == 0
  | .fut none => d != 0
  | .fut (some j) => s.held j && d == (s.node j).depth + 1
  | .exc _ => true
  | .uninit => false

/-- Storing `o` takes the future in it from the user. -/
def State.store (s : State) : Out → Nat → Bool
  | .fut (some j) => upd s.held j false
  | _ => s.held

/-- `get` gives the future in `o` to the user. -/
def State.take (s : State) : Out → Nat → Bool
  | .fut (some j) => upd s.held j true
  | _ => s.held

/-- `mark_finished_internal` on state `c` with outcome `o` (335-345), up to the point where `do_continuation` has released the mutex (304-309): frame for the continuations. -/
def State.finish (s : State) (t c : Nat) (o : Out) (w : Why) (rest : List Frame) : State :=
  { s with node := upd s.node c { s.node c with out := some o, conts := [] }, stk := upd s.stk t (.launch (s.node c).conts w :: rest) }

/-- `set_continuation_ptr(c, lock)` on state `j` (327-333), up to the point where `do_continuation` has released the mutex. -/
def State.attach (s : State) (t c j : Nat) (w : Why) (rest : List Frame) : State :=
  match (s.node j).out with
  | none => { s with node := upd s.node j { s.node j with conts := (s.node j).conts ++ [c] }, stk := upd s.stk t (.launch [] w :: rest) }
  | some _ => { s with node := upd s.node j { s.node j with conts := [] }, stk := upd s.stk t (.launch ((s.node j).conts ++ [c]) w :: rest) }

/-- The user makes a call. -/
def stepOp (s : State) (t : Nat) : Op → Option (State × List Event)
  /- `promise`, `get_future` -/
  | .promise d => some ({ s with n := s.n + 1, node := upd s.node s.n { depth := d }, held := upd s.held s.n true }, [.promised t s.n])
  /- `make_future_deferred_shared_state` (1044-1055, 3836-3843) -/
  | .defer d => some ({ s with n := s.n + 1, node := upd s.node s.n { kind := .deferred, depth := d, deferred := true }, held := upd s.held s.n true }, [.deferred t s.n])
  /- `unwrap`: 5495-5506, 5480-5488 -/
  | .unwrap w =>
    if s.held w = true ∧ (s.node w).depth ≠ 0 then
      let s1 : State := { s with n := s.n + 1, node := upd s.node s.n { kind := .unwrap w, depth := (s.node w).depth - 1 }, held := upd s.held w false }
      some (s1.attach t s.n w (.unwrap s.n) (s.stk t), [.unwraps t s.n w])
    else none
  /- `promise::set_value`, `set_exception` -/
  | .set i o =>
    if i < s.n ∧ (s.node i).kind = .promise ∧ s.fits (s.node i).depth o = true then
      match (s.node i).out with
      | some _ => some (s, [.satisfied t i])
      | none => some ({ s with held := s.store o }.finish t i o (.set i) (s.stk t), [.sets t i o])
    else none
  /- `get`: the first waiter runs a deferred function (387-394, 1056-1068) -/
  | .get i =>
    if s.held i = true then
      if (s.node i).deferred = true then
        some ({ s with held := upd s.held i false, node := upd s.node i { s.node i with deferred := false }, stk := upd s.stk t (.fn i :: .wait i :: s.stk t) }, [.gets t i, .began t i])
      else some ({ s with held := upd s.held i false, stk := upd s.stk t (.wait i :: s.stk t) }, [.gets t i])
    else none
  | .poll i => if s.held i = true then some (s, [.polled t i (s.node i).out.isSome]) else none

/-- `launch_continuation` of `c` up to the end of its first critical section (5410-5436); `rest` is the stack without this call. -/
def stepLaunch (s : State) (t c : Nat) (rest : List Frame) : Option State :=
  match (s.node c).kind with
  | .unwrap w =>
    match (s.node c).inner with
    | none =>
      match (s.node w).out with
      | none => none
      | some (.exc e) => some (s.finish t c (.exc e) .other rest)
      | some .uninit => some (s.finish t c .uninit .other rest)
      | some (.fut none) => some (s.finish t c .uninit .other rest)
      | some (.fut (some j)) => some { s with node := upd s.node c { s.node c with inner := some j }, stk := upd s.stk t (.hook c j :: rest) }
      | some (.num _) => none
    | some j =>
      match (s.node j).out with
      | none => none
      | some o => some (s.finish t c o .other rest)
  | _ => none

/-- A thread goes on with what is on top of its stack. -/
def stepGo (s : State) (t : Nat) : Option (State × List Event) :=
  match s.stk t with
  | .launch (c :: l) w :: rest => (stepLaunch s t c (.launch l w :: rest)).map fun s' => (s', [])
  | .launch [] w :: rest =>
    match w with
    | .set i => some ({ s with stk := upd s.stk t rest }, [.setRet t i])
    | .unwrap u => some ({ s with stk := upd s.stk t rest, held := upd s.held u true }, [.unwrapRet t u])
    | .other => some ({ s with stk := upd s.stk t rest }, [])
  | .hook c j :: rest => some (s.attach t c j .other rest, [])
  | .wait i :: rest =>
    match (s.node i).out with
    | none => none
    | some o => some ({ s with stk := upd s.stk t rest, held := s.take o }, [.got t i o])
  | _ => none

def step (s : State) : Label → Option (State × List Event)
  | .op t o => if s.free t = true then stepOp s t o else none
  | .finish t o =>
    match s.stk t with
    | .fn i :: rest => if s.fits (s.node i).depth o = true then some ({ s with held := s.store o }.finish t i o .other rest, [.ended t i o]) else none
    | _ => none
  | .go t => stepGo s t

end Verif.Unwrap
