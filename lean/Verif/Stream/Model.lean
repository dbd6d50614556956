import Verif.Core.Run
/-!
# Model of output through an `externally_locked_stream`

Models `/repo/include/boost/thread/externally_locked_stream.hpp` 37-74, 92-164.

* Any number of threads write to one stream that is guarded by one mutex, recursive if `recur`.
* Every thread has a stack of guards: the temporary that the first `<<` of an expression returns, which lives to the end of the full expression, or a variable
  initialised with `hold()`, which lives to the end of its scope. The text of an argument is written character by character; in between other threads run,
  and so do nested expressions of the same thread: an argument may be written by a function that itself writes to the guarded stream.
* Inserting an argument may throw at any moment. The exception ends the expression, or the scope of the variable, or is caught within that scope.
* Input (`>>`) and manipulators run through the same code as output.
* Not modelled: guards moved by the user, `bypass` (it does not compile when used), access to the stream past the guard, locking that throws.
-/

namespace Verif.Stream

def upd {α : Type} (f : Nat → α) (i : Nat) (x : α) : Nat → α := fun j => if j = i then x else f j

/-- What the guard is being used for. -/
inductive Phase where
  /-- in `operator<<(externally_locked_stream&, T)`, with the text still to be written; the guard is its local variable `lk` -/
  | first (text : List Char)
  /-- not in any operator -/
  | idle
  /-- in `operator<<(const stream_guard&, T)` -/
  | more (text : List Char)
deriving DecidableEq, Repr

/-- A guard and the local variable it is moved from: do they point to the stream (`mtx_`)? -/
structure Frame where
  /-- `lk` in `operator<<(externally_locked_stream&, T)` -/
  lk : Bool
  /-- the temporary or the variable -/
  tmp : Bool
  ph : Phase
deriving DecidableEq, Repr

structure State where
  /-- owner and depth of the mutex -/
  owner : Option (Nat × Nat)
  /-- the guards of each thread, innermost first -/
  stk : Nat → List Frame

def init : State := ⟨none, fun _ => []⟩

inductive Event where
  /-- a guard has been constructed -/
  | began (t : Nat)
  /-- the insertion of an argument with this text begins -/
  | arg (t : Nat) (text : List Char)
  | put (t : Nat) (c : Char)
  | argDone (t : Nat)
  /-- the insertion has thrown -/
  | threw (t : Nat)
  /-- the guard has been destroyed -/
  | ended (t : Nat)
  /-- unlocking a mutex that the thread does not own, or use of a guard that points to nothing -/
  | broken (t : Nat)
deriving DecidableEq, Repr

inductive Label where
  /-- `stream << text`, the first of an expression -/
  | start (t : Nat) (text : List Char)
  /-- `stream.hold()` -/
  | hold (t : Nat)
  /-- `guard << text` -/
  | insert (t : Nat) (text : List Char)
  /-- the next character goes out -/
  | put (t : Nat)
  /-- the insertion returns -/
  | ret (t : Nat)
  /-- the insertion throws; `caught` within the scope of the guard -/
  | throw (t : Nat) (caught : Bool)
  /-- the full expression or the scope ends -/
  | fin (t : Nat)
deriving DecidableEq, Repr

/-- `mtx.lock()` in the constructor (37-41): possible if the mutex is free, or recursive and the caller's. -/
def acquire (recur : Bool) (s : State) (t : Nat) : Option State :=
  match s.owner with
  | none => some { s with owner := some (t, 1) }
  | some (u, d) => if u = t ∧ recur = true then some { s with owner := some (t, d + 1) } else none

/-- `if (mtx_ != 0) mtx_->unlock()` (54-57); `p`: does the guard point to the stream? -/
def destroy (s : State) (t : Nat) (p : Bool) : State × List Event :=
  if p then
    match s.owner with
    | some (u, d) => if u = t then ({ s with owner := if d = 1 then none else some (t, d - 1) }, []) else (s, [.broken t])
    | none => (s, [.broken t])
  else (s, [])

def setTop (s : State) (t : Nat) (f : Frame) (rest : List Frame) : State := { s with stk := upd s.stk t (f :: rest) }

def pop (s : State) (t : Nat) (rest : List Frame) : State := { s with stk := upd s.stk t rest }

def step (recur : Bool) (s : State) : Label → Option (State × List Event)
  -- 142-148: `stream_guard lk(mtx)` (37-41), then `mtx.get(lk) << arg`; `get` finds that `lk` owns the mutex (59-62)
  | .start t text =>
    (acquire recur s t).map fun s' => (setTop s' t ⟨true, false, .first text⟩ (s.stk t), [.began t, .arg t text])
  -- 109-112
  | .hold t =>
    (acquire recur s t).map fun s' => (setTop s' t ⟨false, true, .idle⟩ (s.stk t), [.began t])
  -- 121-126: `lck.get()` (67-71) requires `mtx_`
  | .insert t text =>
    match s.stk t with
    | ⟨lk, tmp, .idle⟩ :: r => some (setTop s t ⟨lk, tmp, .more text⟩ r, if tmp then [.arg t text] else [.broken t])
    | _ => none
  | .put t =>
    match s.stk t with
    | ⟨lk, tmp, .first (c :: cs)⟩ :: r => some (setTop s t ⟨lk, tmp, .first cs⟩ r, [.put t c])
    | ⟨lk, tmp, .more (c :: cs)⟩ :: r => some (setTop s t ⟨lk, tmp, .more cs⟩ r, [.put t c])
    | _ => none
  | .ret t =>
    match s.stk t with
    -- 147: `return boost::move(lk)` (48-52), then `lk`, which points to nothing, is destroyed
    | ⟨lk, _, .first []⟩ :: r =>
      let (s', e) := destroy s t false
      some (setTop s' t ⟨false, lk, .idle⟩ r, .argDone t :: e)
    -- 125
    | ⟨lk, tmp, .more []⟩ :: r => some (setTop s t ⟨lk, tmp, .idle⟩ r, [.argDone t])
    | _ => none
  | .throw t caught =>
    match s.stk t with
    -- `lk` is destroyed
    | ⟨lk, _, .first _⟩ :: r =>
      let (s', e) := destroy s t lk
      some (pop s' t r, .threw t :: e ++ [.ended t])
    | ⟨lk, tmp, .more _⟩ :: r =>
      if caught then some (setTop s t ⟨lk, tmp, .idle⟩ r, [.threw t])
      else
        let (s', e) := destroy s t tmp
        some (pop s' t r, .threw t :: e ++ [.ended t])
    | _ => none
  | .fin t =>
    match s.stk t with
    | ⟨_, tmp, .idle⟩ :: r =>
      let (s', e) := destroy s t tmp
      some (pop s' t r, e ++ [.ended t])
    | _ => none

end Verif.Stream
