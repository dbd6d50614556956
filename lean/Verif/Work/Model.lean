import Verif.Work.Spec
/-!
# Model of `executors::work`

Models `/repo/include/boost/thread/detail/nullary_function.hpp` (27-132, `nullary_function<void()>`, and 134-234, `nullary_function<R()>`, which differs in that a call returns a value, `R()` for an empty one),
which is `executors::work` (`executors/work.hpp` 14-24). `shared_ptr` is that of the standard library or of Boost, modelled as a pointer with a count of references. The variables and calls may belong
to any threads: every operation is one step, since the counts are atomic and the client must not use one variable in two threads.

Not modelled: lack of memory, exceptions from copying the function into the object.
-/

namespace Verif.Work

structure State where
  /-- `impl` of each variable -/
  h : Nat → Handle
  /-- references to each function object -/
  count : Nat → Nat
  alive : Nat → Bool
  /-- the next function object -/
  fresh : Nat
  run : Nat → Option Nat

def init : State := ⟨fun _ => .absent, fun _ => 0, fun _ => false, 0, fun _ => none⟩

/-- `shared_ptr`: a copy of a pointer. -/
def acquire (s : State) : Handle → State
  | .has f => { s with count := upd s.count f (s.count f + 1) }
  | _ => s

/-- `shared_ptr`: the destructor. -/
def release (s : State) : Handle → State × List Event
  | .has f => if s.count f = 1 then ({ s with count := upd s.count f 0, alive := upd s.alive f false }, [.gone f])
    else ({ s with count := upd s.count f (s.count f - 1) }, [])
  | _ => (s, [])

/-- A pointer is put into a variable; what was there is not counted here. -/
def put (s : State) (i : Nat) (x : Handle) : State := { s with h := upd s.h i x }

/-- nullary_function.hpp 112-116 and 215-219: `impl=other.impl`, as `shared_ptr(r).swap(*this)`. -/
def assign (s : State) (i j : Nat) : State × List Event := release (put (acquire s (s.h j)) i (s.h j)) (s.h i)

/-- nullary_function.hpp 123, 226: `impl = boost::move(other.impl)`, as `shared_ptr(move(r)).swap(*this)`. -/
def moveAssign (s : State) (i j : Nat) : State × List Event :=
  release (put (put s j .empty) i (s.h j)) ((put s j .empty).h i)

/-- nullary_function.hpp 120-121, 223-224 (`BOOST_NO_CXX11_SMART_PTR`): copy, then `reset`. -/
def oldMoveAssign (s : State) (i j : Nat) : State × List Event :=
  let (s', es) := assign s i j
  let (s'', es') := release (put s' j .empty) (s'.h j)
  (s'', es ++ es')

inductive Label where
  | make (i : Nat)
  | makeEmpty (i : Nat)
  | copy (i j : Nat)
  | move (i j : Nat)
  | assign (i j : Nat)
  | moveAssign (i j : Nat)
  | drop (i : Nat)
  | call (c i : Nat)
  | fin (c : Nat) (threw : Bool)
deriving DecidableEq, Repr

/-- `smart`: not `BOOST_NO_CXX11_SMART_PTR`; `n`: number of variables. Constructors: 70-87 (`make`), 89-92 (`makeEmpty`), 93-96 (`copy`), 97-107 (`move`; both versions leave `other` empty); the destructor
108-110; assignments 112-126; `operator()` 129-130 and 231-232, with `call` 51-54 and 62-65. -/
def step (smart : Bool) (n : Nat) (s : State) : Label → Option (State × List Event)
  | .make i =>
    if i < n ∧ s.h i = .absent then
      some ({ s with h := upd s.h i (.has s.fresh), count := upd s.count s.fresh 1, alive := upd s.alive s.fresh true, fresh := s.fresh + 1 }, [.made i s.fresh])
    else none
  | .makeEmpty i => if i < n ∧ s.h i = .absent then some (put s i .empty, [.madeEmpty i]) else none
  | .copy i j => if i < n ∧ s.h i = .absent ∧ s.h j ≠ .absent then some (put (acquire s (s.h j)) i (s.h j), [.copied i j]) else none
  | .move i j => if i < n ∧ s.h i = .absent ∧ s.h j ≠ .absent then some (put (put s j .empty) i (s.h j), [.moved i j]) else none
  | .assign i j =>
    if s.h i ≠ .absent ∧ s.h j ≠ .absent then
      let (s', es) := assign s i j
      some (s', .assigned i j :: es)
    else none
  | .moveAssign i j =>
    if s.h i ≠ .absent ∧ s.h j ≠ .absent then
      let (s', es) := if smart then moveAssign s i j else oldMoveAssign s i j
      some (s', .moveAssigned i j :: es)
    else none
  | .drop i =>
    if s.h i ≠ .absent then
      let (s', es) := release (put s i .absent) (s.h i)
      some (s', .dropped i :: es)
    else none
  | .call c i =>
    if s.run c = none then
      match s.h i with
      | .has f => some ({ s with run := upd s.run c (some f) }, [.called c i (some f)])
      | .empty => some (s, [.called c i none])
      | .absent => none
    else none
  | .fin c b =>
    match s.run c with
    | some f => if s.alive f then some ({ s with run := upd s.run c none }, [.ended c b]) else some (s, [.stale c])
    | none => none

end Verif.Work
