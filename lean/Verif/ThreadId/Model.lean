import Verif.ThreadId.Spec
/-!
# Model of `thread::id`

Models `/repo/include/boost/thread/detail/thread.hpp` (`thread::id` 602-685, `thread::get_id` 735-743, `this_thread::get_id` 747-755, the test for self-join in `join` 758-761 and `do_try_join_until` 769-771) and
`thread::native_handle` of `/repo/src/pthread/thread.cpp` (619-632).

* `basic`: `BOOST_THREAD_PROVIDES_BASIC_THREAD_ID`, the default: an id is a `pthread_t`; the system may give a new thread any that belongs to no thread that is running or has still to be joined or detached.
  Otherwise an id is a pointer to the data the library has for the thread, and keeps them alive: new data can be at any address at which there are none, and data live while the thread runs,
  a `thread` refers to them, or an id does (how that is achieved is C71).
* On Windows the default is the number of the thread in the system, which is not used again while a handle for the thread is open, and so follows the same rules as a `pthread_t`.
* `boost::shared_ptr` compares addresses with `==` and the addresses of the counts with `<`; as there is one count for each set of data and none for a null pointer, one number stands for both.
* No `pthread_t` is 0, which is what `id()` has (646-647).
* Any number `nk` of `thread` objects and `nv` of variables of type `thread::id`. Foreign threads get their data when they first need them (`make`).
* Simplified: `join` is one step, when the thread has ended (see C39); objects are not moved. Not modelled: `get_id` called in a thread after the library has destroyed its data at the end of the thread,
  output (unspecified by the documentation), hashing (a function of the value compared here).
-/

namespace Verif.ThreadId

structure State where
  cnt : Nat
  run : Nat → Bool
  freed : Nat → Bool
  obj : Nat → Option Nat
  /-- `thread_handle`, or the address of the data, 0 if there are none yet -/
  val : Nat → Nat
  /-- the member `thread_data` of each id -/
  var : Nat → Nat

def init : State := ⟨0, fun _ => false, fun _ => false, fun _ => none, fun _ => 0, fun _ => 0⟩

/-- The system may choose `v`. -/
def free (basic : Bool) (nk nv : Nat) (s : State) (v : Nat) : Bool :=
  decide (v ≠ 0) &&
  if basic then (List.range s.cnt).all fun u => !(s.run u || !s.freed u) || decide (s.val u ≠ v)
  else ((List.range s.cnt).all fun u => !s.run u || decide (s.val u ≠ v)) &&
    ((List.range nk).all fun k => match s.obj k with
      | some u => decide (s.val u ≠ v)
      | none => true) &&
    (List.range nv).all fun i => decide (s.var i ≠ v)

/-- What a foreign thread may have when it starts: a `pthread_t`, but no data of the library. -/
def foreignOk (basic : Bool) (nk nv : Nat) (s : State) (v : Nat) : Bool := if basic then free basic nk nv s v else decide (v = 0)

/-- `thread::get_id` (735-743) with `native_handle`. -/
def objId (s : State) (k : Nat) : Nat :=
  match s.obj k with
  | some t => s.val t
  | none => 0

/-- The operators (653-681). -/
def cmp (x y : Nat) : Op → Bool
  | .eq => decide (x = y)
  | .ne => decide (x ≠ y)
  | .lt => decide (x < y)
  | .gt => decide (y < x)
  | .le => !decide (y < x)
  | .ge => !decide (x < y)

inductive Label where
  | start (k v : Nat)
  | foreign (v : Nat)
  | make (t v : Nat)
  | fin (t : Nat)
  | reap (t : Nat)
  | join (c k : Nat)
  | detach (k : Nat)
  | get (i k : Nat)
  | self (i t : Nat)
  | copy (i j : Nat)
  | reset (i : Nat)
  | compare (i j : Nat) (o : Op)
deriving DecidableEq, Repr

def step (basic : Bool) (nk nv : Nat) (s : State) : Label → Option (State × List Event)
  | .start k v =>
    if k < nk ∧ s.obj k = none ∧ free basic nk nv s v = true then
      some ({ s with cnt := s.cnt + 1, run := upd s.run s.cnt true, freed := upd s.freed s.cnt false, obj := upd s.obj k (some s.cnt), val := upd s.val s.cnt v }, [.started k s.cnt])
    else none
  | .foreign v =>
    if foreignOk basic nk nv s v = true then
      some ({ s with cnt := s.cnt + 1, run := upd s.run s.cnt true, freed := upd s.freed s.cnt false, val := upd s.val s.cnt v }, [.foreign s.cnt])
    else none
  | .make t v => if s.run t = true ∧ s.val t = 0 ∧ free basic nk nv s v = true then some ({ s with val := upd s.val t v }, []) else none
  | .fin t => if s.run t = true then some ({ s with run := upd s.run t false }, [.ended t]) else none
  | .reap t => if t < s.cnt ∧ ∀ k < nk, s.obj k ≠ some t then some ({ s with freed := upd s.freed t true }, [.reaped t]) else none
  | .join c k =>
    if s.run c = true ∧ s.val c ≠ 0 then
      match s.obj k with
      | some t =>
        if s.val c = objId s k then some (s, [.refused c k])
        else if s.run t = false then some ({ s with obj := upd s.obj k none, freed := upd s.freed t true }, [.joined c k]) else none
      | none => none
    else none
  | .detach k =>
    match s.obj k with
    | some t => some ({ s with obj := upd s.obj k none, freed := upd s.freed t true }, [.detached k])
    | none => none
  | .get i k => if i < nv then some ({ s with var := upd s.var i (objId s k) }, [.got i k]) else none
  | .self i t => if i < nv ∧ s.run t = true ∧ s.val t ≠ 0 then some ({ s with var := upd s.var i (s.val t) }, [.self i t]) else none
  | .copy i j => if i < nv then some ({ s with var := upd s.var i (s.var j) }, [.copied i j]) else none
  | .reset i => if i < nv then some ({ s with var := upd s.var i 0 }, [.reset i]) else none
  | .compare i j o => some (s, [.compared i j o (cmp (s.var i) (s.var j) o)])

end Verif.ThreadId
