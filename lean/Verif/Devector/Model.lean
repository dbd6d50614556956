import Verif.Core.Run
/-!
# Model of `csbl::devector`

Models `/repo/include/boost/thread/csbl/devector.hpp` lines 21-106, the default container of `sync_queue` and `sync_deque` (concurrent_queues/sync_queue.hpp:32, sync_deque.hpp:32).

Simplifications: elements are values; an element that has been moved from keeps its value in the model (nothing reads it). `std::vector` is a list, and moving from it leaves it empty, as the
standard prescribes for the move constructor. Allocation does not fail.
-/

namespace Verif

/-- devector.hpp:24-25. -/
structure Devector (V : Type) where
  /-- `data_` -/
  vec : List V
  /-- `front_index_` -/
  fi : Nat
deriving DecidableEq, Repr

namespace Devector
variable {V : Type}

/-- devector.hpp:39. -/
def new (V : Type) : Devector V := { vec := [], fi := 0 }

/-- `empty()`: devector.hpp:72-73. -/
def empty (d : Devector V) : Bool := d.vec.length == d.fi

/-- `size()`: devector.hpp:75-76. The subtraction is that of a 64-bit `size_t` and wraps around; no vector has more than 2^64 elements. -/
def size (d : Devector V) : Nat := if d.fi ≤ d.vec.length then d.vec.length - d.fi else 2 ^ 64 - (d.fi - d.vec.length)

/-- `front()`: devector.hpp:78-82. `none`: the index is out of range, which is undefined behaviour. -/
def front (d : Devector V) : Option V := d.vec[d.fi]?

/-- `back()`: devector.hpp:84-88. `none`: `back` of an empty vector, which is undefined behaviour. -/
def back (d : Devector V) : Option V := d.vec.getLast?

/-- `push_back(x)`: devector.hpp:29-31, 90. -/
def pushBack (d : Devector V) (v : V) : Devector V := { d with vec := d.vec ++ [v] }

/-- `++front_index_`: devector.hpp:94. -/
def skip (d : Devector V) : Devector V := { d with fi := d.fi + 1 }

/-- `pop_front()`: devector.hpp:92-99. -/
def popFront (d : Devector V) : Devector V := if d.skip.empty then { vec := [], fi := 0 } else d.skip

/-- What the move constructor makes: devector.hpp:44-47. -/
def moved (d : Devector V) : Devector V := { vec := d.vec, fi := d.fi }

/-- What the move constructor and the move assignment leave behind: devector.hpp:44-47, 59-67. `data_` is empty and `front_index_` unchanged. -/
def movedFrom (d : Devector V) : Devector V := { vec := [], fi := d.fi }

/-- The copy constructor and the copy assignment: devector.hpp:40-43, 49-57. -/
def copy (d : Devector V) : Devector V := { vec := d.vec, fi := d.fi }

/-- `while (!q.empty()) { ... q.front() ...; q.pop_front(); }`, the loop of `run_queued_closures` (executors/loop_executor.hpp:196-201): what it sees of the container.
`none`: undefined behaviour. At most `n` rounds. -/
def drain : Nat → Devector V → Option (List V)
  | 0, d => if d.empty then some [] else none
  | n + 1, d =>
    if d.empty then some []
    else match d.front with
      | some v => (drain n d.popFront).map (v :: ·)
      | none => none

end Devector
end Verif
