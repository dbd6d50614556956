import Verif.FutureHandle.Spec
/-!
# `future`, `shared_future`: the handles — model

`future.hpp` 1327-1516 (`basic_future`), 1719-1856 (`future`), 2128-2239 (`shared_future`), and of the shared state 175-262, 386-447, 485-540, 556-900.

Every operation of a handle is a call of some thread; what it does under the mutex of the shared state is one step. A call that finds the result missing waits, and goes on when it is there. A variable is
a future or a shared future, and is there from the beginning (default constructed); destroying it makes it empty again.

Not modelled: who delivers the result (that is `Verif.Future`, `Verif.Async`, …: here a label), deferred functions, wait callbacks, continuations.
-/

namespace Verif.FutureHandle

theorem upd_apply {α : Type} (f : Nat → α) (i j : Nat) (x : α) : upd f i x j = if j = i then x else f j := rfl

/-- The stored value (future.hpp 559-563, 583; `T&`: 749-754, 767): a null pointer, a value, or an object that was moved from. -/
inductive Stored where
  | null
  | val (v : Nat)
  | moved
deriving DecidableEq, Repr

/-- `shared_state_base` (future.hpp 155-200). -/
structure SS where
  done : Bool := false
  exception : Option Nat := none
  isValid : Bool := true
  result : Stored := .null
  /-- of the promise (2252): a future was obtained; or the state was not made by a promise -/
  obtained : Bool := false

/-- Where a thread is. -/
inductive PC where
  | idle
  /-- in `waiters.wait(lk, is_done)` (future.hpp 394, 420, 432, 445) of the state `k`, called by the operation -/
  | waiting (h : Nat) (op : Op) (k : Nat)
  /-- in `shared_future::get_or`, between `wait()` and `has_value()` (2236-2237) -/
  | orCheck (h d k : Nat)
  /-- in `shared_future::get_or`, between `has_value()` and `get_sh()` (2237) -/
  | orGet (h d k : Nat)
deriving DecidableEq, Repr

structure State where
  st : Nat → SS := fun _ => {}
  /-- `future_` of each variable (future.hpp 1342) -/
  ptr : Nat → Option Nat := fun _ => none
  pc : Nat → PC := fun _ => .idle

inductive Label where
  | deliver (k : Nat) (o : Outcome)
  | obtain (k h : Nat)
  | exceptional (k h : Nat) (e : Option Nat)
  | move (src dst : Nat)
  | copy (src dst : Nat)
  | swap (a b : Nat)
  | destroy (h : Nat)
  | valid (t h : Nat)
  | getState (t h : Nat)
  | hasValue (t h : Nat)
  | hasException (t h : Nat)
  | call (t h : Nat) (op : Op)
  | resume (t : Nat)
  | timeout (t : Nat)
  | interrupt (t : Nat)
deriving DecidableEq, Repr

/-- `mark_finished_with_result_internal`, `mark_exceptional_finish_internal` (future.hpp 591-626, 448-452, 775-779, 854-857): the value or the exception, and `done`. -/
def SS.finish (ty : Ty) (x : SS) : Outcome → SS
  | .value v => { x with done := true, result := if ty = .void then .null else .val v }
  | .exn e => { x with done := true, exception := e }

/-- `shared_state::get(lk)` after the wait (future.hpp 396-399, 645-654, 787-791, 865-868): an exception is thrown; else `move(*result)`, `*result`, nothing. Second component: what becomes of the state. -/
def SS.get (ty : Ty) (x : SS) : Ret × SS :=
  match x.exception with
  | some e => (.threw e, x)
  | none =>
    match ty with
    | .object =>
      match x.result with
      | .null => (.nullDeref, x)
      | .val v => (.value v, { x with result := .moved })
      | .moved => (.movedFrom, x)
    | .ref =>
      match x.result with
      | .val v => (.value v, x)
      | _ => (.nullDeref, x)
    | .void => (.unit, x)

/-- `shared_state::get_sh(lk)` after the wait (future.hpp 661-664, 798-802, 875-878): the same, but a reference to the value, which stays. -/
def SS.getSh (ty : Ty) (x : SS) : Ret :=
  match x.exception with
  | some e => .threw e
  | none =>
    match ty with
    | .object =>
      match x.result with
      | .null => .nullDeref
      | .val v => .value v
      | .moved => .movedFrom
    | .ref =>
      match x.result with
      | .val v => .value v
      | _ => .nullDeref
    | .void => .unit

/-- `get_or` is for objects only: with `T&` and `void` it does not compile. -/
def Op.hasForm (ty : Ty) : Op → Bool
  | .getOr _ => ty == .object
  | _ => true

/-- `has_value` (future.hpp 485-494) -/
def SS.hasValue (x : SS) : Bool := x.done && x.exception.isNone

def State.setSt (s : State) (k : Nat) (x : SS) : State := { s with st := upd s.st k x }
def State.setPc (s : State) (t : Nat) (p : PC) : State := { s with pc := upd s.pc t p }

/-- The thread returns. -/
def State.ret (s : State) (t h : Nat) (op : Op) (r : Ret) : State × List Event := ({ s with pc := upd s.pc t .idle }, [.returned t h op r])

/-- The rest of a call, once the state `k` is done: future.hpp 645-654 (get), 1824-1834 and 1846-1855 (get_or: invalidate, has_value, get or the argument), 404-408 (wait), 445-447, 533-538 (get_exception_ptr),
661-668 (shared get), 386-399 with `rethrow` true (`wait()` in shared get_or, 2236). -/
def State.finish (c : Cfg) (s : State) (t h : Nat) (op : Op) (k : Nat) : State × List Event :=
  let x := s.st k
  match op, c.shared h with
  | .get, false => let r := x.get c.ty; (s.setSt k r.2).ret t h op r.1
  | .get, true => s.ret t h op (x.getSh c.ty)
  | .getOr d, false =>
    let x := if c.invalidates then { x with isValid := false } else x
    if x.hasValue then let r := x.get c.ty; (s.setSt k r.2).ret t h op r.1
    else (s.setSt k x).ret t h op (.fallback d)
  | .getOr d, true =>
    match x.exception with
    | some e => s.ret t h op (.threw e)
    | none => (s.setPc t (.orCheck h d k), [])
  | .wait, _ => s.ret t h op .unit
  | .waitFor, _ => s.ret t h op .ready
  | .excPtr, _ => s.ret t h op (.exc x.exception)

/-- The beginning of a call on the state `k`: `future::get` tests `valid` and invalidates the state (1787-1794); `get_or` tests `valid` (1816-1820, 1842-1846); the others do neither. Then wait if it is not done. -/
def State.begin (c : Cfg) (s : State) (t h : Nat) (op : Op) (k : Nat) : State × List Event :=
  if op.consumes c h && !(s.st k).isValid then s.ret t h op .uninit
  else
    let s := if op == .get && op.consumes c h && c.invalidates then s.setSt k { s.st k with isValid := false } else s
    if (s.st k).done then s.finish c t h op k else (s.setPc t (.waiting h op k), [])

def State.fstate (s : State) (h : Nat) : FState :=
  match s.ptr h with
  | none => .uninitialized
  | some k => if (s.st k).done then .ready else .waiting

def step (c : Cfg) (s : State) (l : Label) : Option (State × List Event) :=
  match l with
  -- whoever owes the result; a promise that is satisfied already refuses
  | .deliver k o => if (s.st k).done then none else some (s.setSt k ((s.st k).finish c.ty o), [.delivered k o])
  -- promise::get_future (2353-2371), assigned to a variable; a second time it throws
  | .obtain k h =>
    if h < c.handles ∧ c.shared h = false ∧ (s.st k).obtained = false then
      some ({ s with st := upd s.st k { s.st k with obtained := true }, ptr := upd s.ptr h (some k) }, [.obtained k h])
    else none
  -- basic_future(exceptional_ptr) (1338-1340, 1357-1360, 188-197): a new state
  | .exceptional k h e =>
    if h < c.handles ∧ (s.st k).obtained = false ∧ (s.st k).done = false then
      some ({ s with st := upd s.st k { done := true, exception := e, obtained := true }, ptr := upd s.ptr h (some k) }, [.exceptional k h e])
    else none
  -- move construction and assignment (1365-1375), share (1759-1762), future(shared_future&&) (1749-1751), shared_future(future&&) (2191-2205)
  | .move src dst =>
    if src < c.handles ∧ dst < c.handles then some ({ s with ptr := upd (upd s.ptr dst (s.ptr src)) src none }, [.moved src dst])
    else none
  -- shared_future copies (2167-2169, 2181-2185)
  | .copy src dst =>
    if src < c.handles ∧ dst < c.handles ∧ c.shared src ∧ c.shared dst then some ({ s with ptr := upd s.ptr dst (s.ptr src) }, [.copied src dst])
    else none
  -- swap (1376-1379)
  | .swap a b =>
    if a < c.handles ∧ b < c.handles ∧ c.shared a = c.shared b then some ({ s with ptr := upd (upd s.ptr a (s.ptr b)) b (s.ptr a) }, [.swapped a b])
    else none
  | .destroy h => if h < c.handles then some ({ s with ptr := upd s.ptr h none }, [.destroyed h]) else none
  -- valid (1439-1442)
  | .valid t h =>
    if s.pc t = .idle ∧ h < c.handles then some (s, [.isValid t h (match s.ptr h with | none => false | some k => (s.st k).isValid)])
    else none
  -- get_state (1389-1396, 520-531), is_ready
  | .getState t h => if s.pc t = .idle ∧ h < c.handles then some (s, [.state t h (s.fstate h)]) else none
  -- has_value, has_exception (1407-1415, 485-501)
  | .hasValue t h =>
    if s.pc t = .idle ∧ h < c.handles then some (s, [.hasValue t h (match s.ptr h with | none => false | some k => (s.st k).hasValue)])
    else none
  | .hasException t h =>
    if s.pc t = .idle ∧ h < c.handles then some (s, [.hasException t h (match s.ptr h with | none => false | some k => (s.st k).done && (s.st k).exception.isSome)])
    else none
  -- get, get_or, wait, wait_for / wait_until, get_exception_ptr: without a state they throw future_uninitialized (1446-1449, 1783-1786, 2219-2222, …), but get_exception_ptr returns null (1432-1437)
  | .call t h op =>
    if s.pc t = .idle ∧ h < c.handles ∧ op.hasForm c.ty then
      match s.ptr h with
      | none => some (s, [.called t h op, .returned t h op (if op = .excPtr then .exc none else .uninit)])
      | some k => let r := s.begin c t h op k; some (r.1, .called t h op :: r.2)
    else none
  | .resume t =>
    match s.pc t with
    | .idle => none
    | .waiting h op k => if (s.st k).done then some (s.finish c t h op k) else none
    | .orCheck h d k => if (s.st k).hasValue then some (s.setPc t (.orGet h d k), []) else some (s.ret t h (.getOr d) (.fallback d))
    | .orGet h d k => some (s.ret t h (.getOr d) ((s.st k).getSh c.ty))
  -- the timed wait ends (420, 432, 445): the predicate decides
  | .timeout t =>
    match s.pc t with
    | .waiting h .waitFor k => some (s.ret t h .waitFor (if (s.st k).done then .ready else .timeout))
    | _ => none
  -- thread_interrupted from the wait
  | .interrupt t =>
    match s.pc t with
    | .waiting h op _ => some (s.ret t h op .interrupted)
    | _ => none

def init : State := {}

end Verif.FutureHandle
