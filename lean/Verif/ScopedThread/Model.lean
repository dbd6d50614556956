import Verif.Core.Run
/-!
# Model of `scoped_thread` and `strict_scoped_thread`

Models `/repo/include/boost/thread/scoped_thread.hpp` 40-98 (`strict_scoped_thread`: only construction and destruction) and 120-283 (`scoped_thread`), and the actions of
`/repo/include/boost/thread/thread_functors.hpp` 22-67.

* Objects and threads are numbered; the number of a thread is the order in which it was started. `slot o` is the thread the `t_` of object `o` holds.
* Each call is one step: using one object from two threads at once is a data race (outside the contract); what the thread objects do is the
  specification of C39 (`Verif.Thread`): `join` succeeds, or throws because of an interruption or because the caller is the held thread, and then leaves the object as it was.
* Not modelled: actions written by the client (other than the four of the library), timed joins, `native_handle`, ids.
-/

namespace Verif.ScopedThread

/-- thread_functors.hpp 22-29, 31-41, 43-53, 56-67 -/
inductive Fn where
  | detach
  | detachIf
  | joinIf
  | interruptJoinIf
deriving DecidableEq, Repr

/-- How a join ends; chosen by the environment. -/
inductive J where
  | ok
  | interrupted
  /-- the caller is the thread held -/
  | self
deriving DecidableEq, Repr

structure State where
  slot : Nat → Option Nat := fun _ => none
  alive : Nat → Bool := fun _ => false
  n : Nat := 0
  /-- `std::terminate` has been called -/
  dead : Bool := false

inductive Label where
  /-- construct with a thread (scoped_thread.hpp 147-150, 171-174) -/
  | make (o : Nat)
  | makeEmpty (o : Nat)
  | moveCtor (dst src : Nat)
  | assign (dst src : Nat) (j : J)
  | swap (a b : Nat)
  | destroy (o : Nat) (j : J)
  /-- the members the client may call itself -/
  | join (o : Nat) (j : J)
  | detach (o : Nat)
  | interrupt (o : Nat)
deriving DecidableEq, Repr

inductive Event where
  | made (o t : Nat)
  | madeEmpty (o : Nat)
  | moved (dst src : Nat)
  | assigned (dst src : Nat)
  | swapped (a b : Nat)
  | destroyed (o : Nat)
  /-- the thread that object `o` holds is interrupted, joined, detached; the join throws -/
  | interrupted (o t : Nat)
  | joined (o t : Nat)
  | detached (o t : Nat)
  | joinThrew (o t : Nat)
  | notJoinable (o : Nat)
  | terminated (o : Nat)
deriving DecidableEq, Repr

def upd {α : Type} (f : Nat → α) (i : Nat) (x : α) : Nat → α := fun j => if j = i then x else f j

/-- `t_.join()`: new state, events, and whether it throws (C39). -/
def doJoin (s : State) (o t : Nat) : J → State × List Event × Bool
  | .ok => ({ s with slot := upd s.slot o none }, [.joined o t], false)
  | .interrupted => (s, [.joinThrew o t], true)
  | .self => (s, [.joinThrew o t], true)

def doDetach (s : State) (o t : Nat) : State × List Event × Bool := ({ s with slot := upd s.slot o none }, [.detached o t], false)

/-- `on_destructor(t_)`. `thread::detach` on an object that holds no thread does nothing (thread.cpp 423-427). -/
def act (fn : Fn) (s : State) (o : Nat) (j : J) : State × List Event × Bool :=
  match s.slot o with
  | none => (s, [], false)
  | some t =>
    match fn with
    | .detach => doDetach s o t
    | .detachIf => doDetach s o t
    | .joinIf => doJoin s o t j
    | .interruptJoinIf => let (s', es, b) := doJoin s o t j; (s', .interrupted o t :: es, b)

def step (fn : Fn) (s : State) (l : Label) : Option (State × List Event) :=
  if s.dead then none
  else match l with
  | .make o => if s.alive o then none else some ({ s with alive := upd s.alive o true, slot := upd s.slot o (some s.n), n := s.n + 1 }, [.made o s.n])
  | .makeEmpty o => if s.alive o then none else some ({ s with alive := upd s.alive o true, slot := upd s.slot o none }, [.madeEmpty o])
  | .moveCtor d src =>
    -- 185-187
    if s.alive d || !s.alive src then none
    else some ({ s with alive := upd s.alive d true, slot := upd (upd s.slot d (s.slot src)) src none }, [.moved d src])
  | .assign d src j =>
    -- 208-215; the action is not protected from interruption, and an exception leaves the function before the move
    if !(s.alive d && s.alive src) then none
    else match act fn s d j with
      | (s', es, true) => some (s', es)
      | (s', es, false) => some ({ s' with slot := upd (upd s'.slot d (s'.slot src)) src none }, es ++ [.assigned d src])
  | .swap a b =>
    -- 220-223
    if !(s.alive a && s.alive b) then none
    else some ({ s with slot := upd (upd s.slot a (s.slot b)) b (s.slot a) }, [.swapped a b])
  | .destroy o j =>
    -- 194-203; interruption is disabled, any other exception out of the destructor terminates
    if !s.alive o || j == .interrupted then none
    else match act fn s o j with
      | (s', es, true) => some ({ s' with dead := true }, es ++ [.terminated o])
      | (s', es, false) => some ({ s' with alive := upd s'.alive o false }, es ++ [.destroyed o])
  | .join o j =>
    if !s.alive o then none
    else match s.slot o with
      | none => some (s, [.notJoinable o])
      | some t => let (s', es, _) := doJoin s o t j; some (s', es)
  | .detach o =>
    if !s.alive o then none
    else match s.slot o with
      | none => some (s, [])
      | some t => let (s', es, _) := doDetach s o t; some (s', es)
  | .interrupt o =>
    if !s.alive o then none
    else match s.slot o with
      | none => some (s, [])
      | some t => some (s, [.interrupted o t])

end Verif.ScopedThread
