import Verif.Devector.Model
import Verif.SyncQueue.Model
/-!
# Model of `sync_queue` and `sync_deque` with their default container

`Verif.SyncQueue` models `sync_queue` over a container that is a list. This is the same code over `csbl::devector`, the default (concurrent_queues/sync_queue.hpp:32, sync_deque.hpp:32):
`/repo/include/boost/thread/concurrent_queues/detail/sync_queue_base.hpp` lines 35-204, `sync_queue.hpp` lines 32-316, `sync_deque.hpp` lines 32-316. Threads, calls and events are those of
`Verif.SyncQueue`; one label is one critical section.

Reading a container out of range sets `ub`, and nothing is said of what happens then.
-/

namespace Verif.DevQueue
open SyncQueue (PC Kind Status Event Label)

/-- The members, sync_queue_base.hpp:66-69, and the threads. -/
structure State (V : Type) where
  data : Devector V
  closed : Bool
  ts : List PC
  ub : Bool
deriving DecidableEq, Repr

/-- sync_queue_base.hpp:108-112. -/
def init (V : Type) (n : Nat) : State V := { data := .new V, closed := false, ts := List.replicate n .idle, ub := false }

variable {V : Type}

/-- `pull(elem, lk)`: sync_queue.hpp:80-84, sync_deque.hpp:80-84. -/
def pop (s : State V) (t : Nat) : State V × List (Event V) :=
  match s.data.front with
  | some v => ({ s with data := s.data.popFront, ts := s.ts.set t .idle }, [.pulled t v])
  | none => ({ s with ub := true }, [])

/-- `wait_until_not_empty_or_closed` (sync_queue_base.hpp:189-194) with the lock held, then the rest of the pull (sync_queue.hpp:152-155, 187-189, sync_deque.hpp:150-156, 184-200). -/
def waitThenPull (s : State V) (t : Nat) (k : Kind) : State V × List (Event V) :=
  if !s.data.empty || s.closed then                        -- not_empty_or_closed, 185
    if !s.data.empty then pop s t                          -- 192
    else ({ s with ts := s.ts.set t .idle }, [.noPull t .closed])
  else ({ s with ts := s.ts.set t (.asleep k) }, [])

/-- The last test of a pull whose deadline has passed: sync_queue_base.hpp:200-203. -/
def lastPull (s : State V) (t : Nat) : State V × List (Event V) :=
  if !s.data.empty || s.closed then
    if !s.data.empty then pop s t
    else ({ s with ts := s.ts.set t .idle }, [.noPull t .closed])
  else ({ s with ts := s.ts.set t .idle }, [.noPull t .timeout])

/-- `try_pull(elem, lk)`: sync_queue.hpp:139-148, sync_deque.hpp:139-148. -/
def tryPull (s : State V) (t : Nat) : State V × List (Event V) :=
  if s.data.empty then
    if s.closed then (s, [.noPull t .closed]) else (s, [.noPull t .empty])
  else pop s t

/-- `push` and `try_push`: sync_queue.hpp:92-102, 203-295, sync_deque.hpp:92-102, 203-295. -/
def push (s : State V) (t : Nat) (v : V) : State V × List (Event V) :=
  if s.closed then (s, [.pushed t v .closed])
  else ({ s with data := s.data.pushBack v, ts := s.ts.map PC.wake }, [.pushed t v .success])

/-- `underlying_queue()`: sync_queue_base.hpp:60-63, `return boost::move(data_)`. The event shows what the caller finds in the container they get. -/
def take (s : State V) (t : Nat) : State V × List (Event V) :=
  match s.data.moved.drain s.data.vec.length with
  | some l => ({ s with data := s.data.movedFrom }, [.taken t l])
  | none => ({ s with ub := true }, [])

/-- Something an idle thread does. -/
def idle (s : State V) (t : Nat) (r : State V × List (Event V)) : Option (State V × List (Event V)) :=
  if s.ts[t]? = some .idle then some r else none

/-- One critical section. The index in the pulls' labels, which chooses an element of a priority queue, is 0 here. -/
def step (s : State V) (l : Label V) : Option (State V × List (Event V)) :=
  if s.ub then none
  else match l with
  | .push t v => idle s t (push s t v)
  | .busyPush t v => idle s t (s, [.pushed t v .busy])                                      -- sync_queue.hpp:236, 281-285
  | .busyPull t => idle s t (s, [.noPull t .busy])                                          -- 176-179
  | .tryPull t i => if i = 0 then idle s t (tryPull s t) else none
  | .pull t k i => if i = 0 then idle s t (waitThenPull s t k) else none
  | .resume t i =>
    if i = 0 then
      match s.ts[t]? with
      | some (.woken k) => some (waitThenPull s t k)
      | some .expired => some (lastPull s t)
      | _ => none
    else none
  | .spurious t =>
    match s.ts[t]? with
    | some (.asleep k) => some ({ s with ts := s.ts.set t (.woken k) }, [])
    | _ => none
  | .timeout t =>
    match s.ts[t]? with
    | some (.asleep .timed) => some ({ s with ts := s.ts.set t .expired }, [])
    | some (.woken .timed) => some ({ s with ts := s.ts.set t .expired }, [])
    | _ => none
  | .interrupt t =>
    match s.ts[t]? with
    | some (.asleep _) => some ({ s with ts := s.ts.set t .idle }, [.interrupted t])
    | some (.woken _) => some ({ s with ts := s.ts.set t .idle }, [.interrupted t])
    | _ => none
  | .close t => idle s t ({ s with closed := true, ts := s.ts.set t .closing }, [.closed t])   -- sync_queue_base.hpp:123-124
  | .closeNotify t =>                                                                       -- 126
    match s.ts[t]? with
    | some .closing => some ({ s with ts := (s.ts.set t .idle).map PC.wake }, [.closeReturned t])
    | _ => none
  | .size t => idle s t (s, [.sizeIs t s.data.size])                                        -- 159-163
  | .empty t => idle s t (s, [.emptyIs t s.data.empty])                                     -- 147-151
  | .isClosed t => idle s t (s, [.closedIs t s.closed])                                     -- 130-134
  | .full t => idle s t (s, [.fullIs t false])                                              -- 153-156
  | .take t => idle s t (take s t)

end Verif.DevQueue
