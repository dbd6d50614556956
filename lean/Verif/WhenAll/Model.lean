import Verif.Core.Run
/-!
# Model of when_all and when_any

Models `/repo/include/boost/thread/future.hpp` 5511-5893: `future_when_all_vector_shared_state`, `future_when_any_vector_shared_state`, `future_when_all_tuple_shared_state`,
`future_when_any_tuple_shared_state` and the functions `when_all` and `when_any`; with `run_if_is_deferred`, `run_if_is_deferred_or_ready` and `wait_internal` of the shared state (362-401).

* Any number of calls, each with any list of inputs; an input is a shared state, or invalid (`none`). Inputs may be shared between calls and with anybody else (shared futures).
* A shared state is or is not deferred at first (`init d`). Somebody may take its function up (`take`); a function that is not deferred any more, or a promise, may at any time end (`finish`). A call
  that executes a deferred function goes on when that has ended.
* `wait_for_any` is one step that is possible when a valid input is ready; how it works is modelled in `Verif.WaitAny`, with what can go wrong in it.
* Starting the thread may fail (label `fail`). `BOOST_THREAD_FUTURE_BLOCKING` is off.
* Simplified: the result holds the inputs themselves; their contents are not looked at. Interruption of the internal thread is impossible (nobody has a handle to it).
-/

namespace Verif.WhenAll

def upd {α : Type} (f : Nat → α) (i : Nat) (x : α) : Nat → α := fun j => if j = i then x else f j

@[grind =] theorem upd_apply {α : Type} (f : Nat → α) (i j : Nat) (x : α) : upd f i x j = if j = i then x else f j := rfl

/-- Which function was called: `all` or any, with single futures (`tuple`) or a range. -/
structure Which where
  all : Bool
  tuple : Bool
deriving DecidableEq, Repr

inductive PC where
  /-- not called -/
  | none
  /-- in `run_deferred`: inputs to look at, and the result so far -/
  | defer (todo : List (Option Nat)) (res : Bool)
  /-- in `run_deferred`, executing input `i` -/
  | running (i : Nat) (todo : List (Option Nat)) (res : Bool)
  /-- `run_deferred` has ended: `run` is to be called here (`inl`) or in a new thread -/
  | start (inl : Bool)
  /-- in `run`, waiting -/
  | wait (todo : List (Option Nat)) (inl : Bool)
  /-- in `run`, executing input `i` -/
  | exec (i : Nat) (todo : List (Option Nat)) (inl : Bool)
  /-- the result is ready, the call has not returned -/
  | returning
  | finished
  /-- a null pointer has been dereferenced -/
  | crashed
deriving DecidableEq, Repr

inductive Res where
  | futures (fs : List (Option Nat))
  | exception
deriving DecidableEq, Repr

structure State where
  deferred : Nat → Bool
  done : Nat → Bool
  which : Nat → Which
  arg : Nat → List (Option Nat)
  pc : Nat → PC

def init (d : Nat → Bool) : State := { deferred := d, done := fun _ => false, which := fun _ => ⟨true, true⟩, arg := fun _ => [], pc := fun _ => .none }

inductive Event where
  | call (c : Nat) (w : Which) (fs : List (Option Nat))
  /-- the call executes the deferred function of input `i` -/
  | took (c i : Nat)
  /-- input `i` becomes ready -/
  | done (i : Nat)
  /-- the future of call `c` becomes ready -/
  | ready (c : Nat) (r : Res)
  | ret (c : Nat)
  | threw (c : Nat)
  /-- undefined behaviour -/
  | crash (c : Nat)
deriving DecidableEq, Repr

inductive Label where
  | call (c : Nat) (w : Which) (fs : List (Option Nat))
  | take (i : Nat)
  | finish (i : Nat)
  | go (c : Nat)
  | fail (c : Nat)
deriving DecidableEq, Repr

/-- `mark_finished_with_result` or `mark_exceptional_finish` at the end of `run`. -/
def State.mark (s : State) (c : Nat) (r : Res) (inl : Bool) : State × List Event := ({ s with pc := upd s.pc c (if inl then .returning else .finished) }, [.ready c r])

/-- The next step of a call. -/
def go (s : State) (c : Nat) : PC → Option (State × List Event)
  | .none => none
  -- run_if_is_deferred, run_if_is_deferred_or_ready: this->future_->... (1783-1788, 2212-2217)
  | .defer (none :: _) _ => some ({ s with pc := upd s.pc c .crashed }, [.crash c])
  | .defer (some i :: todo) res =>
    -- is_deferred_=false; execute(lk) (362-368, 374-382)
    if s.deferred i then some ({ s with deferred := upd s.deferred i false, pc := upd s.pc c (.running i todo res) }, [.took c i])
    else if (s.which c).all then
      -- the tuple version stops here (5683-5688), the vector version goes on (5540-5550)
      if (s.which c).tuple then some ({ s with pc := upd s.pc c (.start false) }, []) else some ({ s with pc := upd s.pc c (.defer todo true) }, [])
    -- return done (384-385, 5611-5620, 5755-5760)
    else if s.done i then some ({ s with pc := upd s.pc c (.start true) }, []) else some ({ s with pc := upd s.pc c (.defer todo res) }, [])
  -- the end of run_deferred: `init` (5551-5563, 5621-5634, 5729-5741, 5799-5812)
  | .defer [] res => some ({ s with pc := upd s.pc c (.start (if (s.which c).all then !res else false)) }, [])
  -- the end of execute
  | .running i todo res => if s.done i then some ({ s with pc := upd s.pc c (if (s.which c).all then .defer todo res else .start true) }, []) else none
  -- run, or boost::thread(run).detach()
  | .start inl => some ({ s with pc := upd s.pc c (.wait (s.arg c) inl) }, if inl then [] else [.ret c])
  | .wait todo inl =>
    if (s.which c).all then
      -- wait_for_all (futures/wait_for_all.hpp 18-25, 60-66) of the inputs: wait (1444-1451), wait_internal (387-401)
      match todo with
      | [] => some (s.mark c (.futures (s.arg c)) inl)
      -- future_uninitialized, caught in run (5533-5535, 5706-5708)
      | none :: _ => some (s.mark c .exception inl)
      | some i :: todo =>
        if s.deferred i then some ({ s with deferred := upd s.deferred i false, pc := upd s.pc c (.exec i todo inl) }, [.took c i])
        else if s.done i then some ({ s with pc := upd s.pc c (.wait todo inl) }, []) else none
    else
      -- wait_for_any (5605, 5781)
      if ∃ i ∈ (s.arg c).filterMap id, s.done i = true then some (s.mark c (.futures (s.arg c)) inl) else none
  | .exec i todo inl => if s.done i then some ({ s with pc := upd s.pc c (.wait todo inl) }, []) else none
  | .returning => some ({ s with pc := upd s.pc c .finished }, [.ret c])
  | .finished => none
  | .crashed => none

def step (s : State) : Label → Option (State × List Event)
  -- when_all, when_any (5826-5893): an empty range, or no argument, gives a ready future; in a tuple the inputs are looked at from the last to the first (5682-5696, 5754-5769)
  | .call c w fs =>
    if s.pc c = .none then
      if fs = [] then some ({ s with pc := upd s.pc c .finished }, [.call c w fs, .ready c (.futures []), .ret c])
      else some ({ s with which := upd s.which c w, arg := upd s.arg c fs, pc := upd s.pc c (.defer (if w.tuple then fs.reverse else fs) false) }, [.call c w fs])
    else none
  | .take i => if s.deferred i then some ({ s with deferred := upd s.deferred i false }, []) else none
  | .finish i => if s.deferred i = false ∧ s.done i = false then some ({ s with done := upd s.done i true }, [.done i]) else none
  | .go c => go s c (s.pc c)
  -- the constructor of boost::thread throws
  | .fail c =>
    match s.pc c with
    | .start false => some ({ s with pc := upd s.pc c .finished }, [.threw c])
    | _ => none

end Verif.WhenAll
