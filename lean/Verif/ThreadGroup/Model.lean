import Verif.Core.Run
/-!
# Model of `thread_group`

Models `/repo/include/boost/thread/detail/thread_group.hpp` 23-146.

* `boost::thread` objects (the pointers kept by the group) are numbered in order of creation, and so are threads; thread 0 is the initial one. `tid p` is the thread
  that object `p` holds, `none` for not-a-thread. `get_id` (thread.cpp 556-566) returns equal ids for two objects exactly when they hold the same thread or both hold none.
* What happens under the group's `shared_mutex` is one step, except in `join_all`, which holds it shared while it waits; steps that take it exclusively are possible only
  when no `join_all` holds it (C09).
* Objects change outside the group too: clients join or detach them (`release`) and move threads between them (`move`).
* `assertions`: `BOOST_THREAD_THROW_IF_PRECONDITION_NOT_SATISFIED` is defined (detail/config.hpp), so that a precondition that fails throws; otherwise it is not evaluated.
* Not modelled: `thread` or `push_back` throwing in `create_thread`; what deleting a joinable thread does to the thread (C39).
-/

namespace Verif.ThreadGroup

inductive PC where
  | idle
  /-- `add_thread`: past line 90, about to lock -/
  | adding (p : Nat)
  | removing (p : Nat)
  | creating
  /-- `join_all`: past line 111, about to lock -/
  | joinStart
  /-- `join_all`: has still to look at these members -/
  | joining (rest : List Nat)
deriving DecidableEq, Repr

structure State where
  /-- `threads` (144) -/
  members : List Nat := []
  tid : Nat → Option Nat := fun _ => none
  pc : Nat → PC := fun _ => .idle
  /-- the function of the thread has returned -/
  fin : Nat → Bool := fun _ => false
  /-- numbers of the next object and of the next thread -/
  np : Nat := 0
  nt : Nat := 1
  destroyed : Bool := false

inductive Op where
  | create
  /-- `none`: a null pointer -/
  | add (p : Option Nat)
  | remove (p : Nat)
  | isIn (p : Nat)
  | selfIn
  | size
  | interruptAll
  | joinAll
  | destroy
deriving DecidableEq, Repr

inductive Label where
  | newObj
  | newEmpty
  | release (p : Nat)
  | move (dst src : Nat)
  | finish (t : Nat)
  | call (c : Nat) (op : Op)
  | go (c : Nat)
  /-- `join_all` is interrupted while it waits -/
  | interrupt (c : Nat)
deriving DecidableEq, Repr

inductive Event where
  | made (p t : Nat)
  | madeEmpty (p : Nat)
  | released (p : Nat)
  | moved (dst src : Nat)
  | created (c p t : Nat)
  | added (c p : Nat)
  /-- `add_thread` threw -/
  | refused (c p : Nat)
  | removed (c p : Nat)
  | isIn (c p : Nat) (b : Bool)
  | selfIn (c : Nat) (b : Bool)
  | size (c k : Nat)
  /-- these threads have been interrupted -/
  | interruptAll (c : Nat) (ts : List Nat)
  /-- `join_all` joins member `p` -/
  | joined (c p : Nat)
  | joinAllRet (c : Nat)
  | joinAllThrew (c : Nat)
  | deleted (c p : Nat)
  | destroyed (c : Nat)
deriving DecidableEq, Repr

def upd {α : Type} (f : Nat → α) (i : Nat) (x : α) : Nat → α := fun j => if j = i then x else f j

def State.setPc (s : State) (c : Nat) (p : PC) : State := { s with pc := upd s.pc c p }

def PC.shares : PC → Bool
  | .joining _ => true
  | _ => false

/-- Some `join_all` holds the mutex shared. -/
def State.shared (s : State) : Bool := (List.range s.nt).any fun c => (s.pc c).shares

/-- `(*it)->get_id() == id` for some member (44-50, 60-66). -/
def State.hasId (s : State) (i : Option Nat) : Bool := s.members.any fun q => s.tid q == i

def call (assertions : Bool) (s : State) (c : Nat) : Op → Option (State × List Event)
  | .create => some (s.setPc c .creating, [])
  | .add none => some (s, [])
  | .add (some p) =>
    -- 84-90
    if s.np ≤ p then none
    else if assertions && s.hasId (s.tid p) then some (s, [.refused c p])
    else some (s.setPc c (.adding p), [])
  | .remove p => some (s.setPc c (.removing p), [])
  | .isIn p => if s.np ≤ p then none else some (s, [.isIn c p (s.hasId (s.tid p))])
  | .selfIn => some (s, [.selfIn c (s.hasId (some c))])
  | .size => some (s, [.size c s.members.length])
  | .interruptAll => some (s, [.interruptAll c (s.members.filterMap s.tid)])
  | .joinAll =>
    -- 109-111
    if assertions && s.hasId (some c) then some (s, [.joinAllThrew c]) else some (s.setPc c .joinStart, [])
  | .destroy =>
    -- 30-38; it takes no lock: no other thread may be using the group
    if (List.range s.nt).all fun i => s.pc i == .idle then some ({ s with destroyed := true }, s.members.map (.deleted c) ++ [.destroyed c]) else none

def go (s : State) (c : Nat) : Option (State × List Event) :=
  match s.pc c with
  | .idle => none
  | .creating =>
    -- 78-81
    if s.shared then none
    else some ({ s with members := s.members ++ [s.np], tid := upd s.tid s.np (some s.nt), np := s.np + 1, nt := s.nt + 1 }.setPc c .idle, [.created c s.np s.nt])
  | .adding p => if s.shared then none else some ({ s with members := s.members ++ [p] }.setPc c .idle, [.added c p])
  | .removing p =>
    -- 99-104: the first occurrence
    if s.shared then none else some ({ s with members := s.members.erase p }.setPc c .idle, [.removed c p])
  | .joinStart => some (s.setPc c (.joining s.members), [])
  | .joining [] => some (s.setPc c .idle, [.joinAllRet c])
  | .joining (p :: rest) =>
    -- 118-119
    match s.tid p with
    | none => some (s.setPc c (.joining rest), [])
    | some t =>
      if t = c then some (s.setPc c .idle, [.joinAllThrew c])
      else if s.fin t then some ({ s with tid := upd s.tid p none }.setPc c (.joining rest), [.joined c p])
      else none

def step (assertions : Bool) (s : State) (l : Label) : Option (State × List Event) :=
  if s.destroyed then none
  else match l with
  | .newObj => some ({ s with tid := upd s.tid s.np (some s.nt), np := s.np + 1, nt := s.nt + 1 }, [.made s.np s.nt])
  | .newEmpty => some ({ s with tid := upd s.tid s.np none, np := s.np + 1 }, [.madeEmpty s.np])
  | .release p => if p < s.np then some ({ s with tid := upd s.tid p none }, [.released p]) else none
  | .move d src =>
    if d < s.np ∧ src < s.np ∧ d ≠ src ∧ s.tid d = none then some ({ s with tid := upd (upd s.tid d (s.tid src)) src none }, [.moved d src]) else none
  | .finish t => if t < s.nt ∧ s.pc t = .idle ∧ s.fin t = false then some ({ s with fin := upd s.fin t true }, []) else none
  | .call c op => if c < s.nt ∧ s.pc c = .idle ∧ s.fin c = false then call assertions s c op else none
  | .go c => go s c
  | .interrupt c =>
    match s.pc c with
    | .joining _ => some (s.setPc c .idle, [.joinAllThrew c])
    | _ => none

end Verif.ThreadGroup
