import Verif.Core.Run
import Verif.Core.Threads
/-!
# Model of `boost::concurrent::sync_queue` and `sync_priority_queue`

Models `/repo/include/boost/thread/concurrent_queues/detail/sync_queue_base.hpp` lines 35-204,
`sync_queue.hpp` lines 32-316 and `sync_priority_queue.hpp` lines 34-90, 94-380.

One label is one critical section under `mtx_`, from taking the mutex to releasing it or waiting on `cond_`.
`close()` is two steps, because it notifies after releasing the mutex. `notify_all` under the mutex makes every sleeping
consumer awake.

The container is a list that is empty after having been moved from. `Verif.DevQueue` is the same code over `csbl::devector`, the default container, which is not.

Simplifications: copying and moving elements does not fail; `nonblocking_*` may find the mutex busy at any time; the heap functions of
the standard library are modelled by their contract, "the front of a heap is a greatest element": the label chooses the
element, and `front` says which choices are possible.
-/

namespace Verif.SyncQueue

/-- The blocking pulls: `pull` throws when closed, `wait_pull` returns a status, `pull_until`/`pull_for` also time out. -/
inductive Kind where
  | throwing
  | status
  | timed
deriving DecidableEq, Repr

inductive PC where
  | idle
  /-- waiting on `cond_` -/
  | asleep (k : Kind)
  /-- notified or woken spuriously, about to re-take the mutex and test the predicate again -/
  | woken (k : Kind)
  /-- the deadline passed, about to re-take the mutex and test the predicate a last time -/
  | expired
  /-- `close()` has released the mutex and is about to notify (sync_queue_base.hpp:126) -/
  | closing
deriving DecidableEq, Repr

def PC.isAsleep : PC → Bool
  | .asleep _ => true
  | _ => false

/-- `cond_.notify_all()`. -/
def PC.wake : PC → PC
  | .asleep k => .woken k
  | p => p

inductive Status where
  | success
  | closed
  | empty
  | busy
  | timeout
deriving DecidableEq, Repr

/-- What callers observe. Throwing `sync_queue_is_closed` is reported as the status `closed`. -/
inductive Event (V : Type) where
  | pushed (t : Nat) (v : V) (r : Status)
  /-- a successful pull -/
  | pulled (t : Nat) (v : V)
  /-- an unsuccessful pull -/
  | noPull (t : Nat) (r : Status)
  | closed (t : Nat)
  | closeReturned (t : Nat)
  | sizeIs (t : Nat) (n : Nat)
  | emptyIs (t : Nat) (b : Bool)
  | closedIs (t : Nat) (b : Bool)
  | fullIs (t : Nat) (b : Bool)
  | taken (t : Nat) (vs : List V)
  | interrupted (t : Nat)
deriving DecidableEq, Repr

/-- The members, sync_queue_base.hpp:66-69, and the threads. -/
structure State (V : Type) where
  data : List V
  closed : Bool
  ts : List PC
deriving DecidableEq, Repr

/-- sync_queue_base.hpp:108-112. -/
def init (V : Type) (n : Nat) : State V := { data := [], closed := false, ts := List.replicate n .idle }

inductive Label (V : Type) where
  /-- `push` (243-245, 292-294), `try_push` (205-214), `wait_push` (220-229) -/
  | push (t : Nat) (v : V)
  /-- `nonblocking_push` (235-237) or `nonblocking_pull` (175-180) finds the mutex taken -/
  | busyPush (t : Nat) (v : V)
  | busyPull (t : Nat)
  /-- `try_pull`, `nonblocking_pull` with the mutex obtained; `i` is the element taken -/
  | tryPull (t : Nat) (i : Nat)
  /-- `pull`, `wait_pull`, `pull_until` up to the return or the first wait -/
  | pull (t : Nat) (k : Kind) (i : Nat)
  /-- a consumer woken from its wait re-takes the mutex -/
  | resume (t : Nat) (i : Nat)
  | spurious (t : Nat)
  | timeout (t : Nat)
  /-- the consumer is interrupted in its wait -/
  | interrupt (t : Nat)
  | close (t : Nat)
  | closeNotify (t : Nat)
  | size (t : Nat)
  | empty (t : Nat)
  | isClosed (t : Nat)
  | full (t : Nat)
  /-- `underlying_queue()` moves the container out -/
  | take (t : Nat)
deriving DecidableEq, Repr

variable {V : Type}

/-- `pull(elem, lk)`: sync_queue.hpp:80-84 and sync_priority_queue.hpp:78-83. -/
def pop (front : List V → Nat → Bool) (s : State V) (t i : Nat) : Option (State V × List (Event V)) :=
  if front s.data i then
    match s.data[i]? with
    | some v => some ({ s with data := s.data.eraseIdx i, ts := s.ts.set t .idle }, [.pulled t v])
    | none => none
  else none

/-- `wait_until_not_empty_or_closed` (sync_queue_base.hpp:189-194) with the lock held, then the rest of the pull
(sync_queue.hpp:152-155, 187-189). -/
def waitThenPull (front : List V → Nat → Bool) (s : State V) (t : Nat) (k : Kind) (i : Nat) :
    Option (State V × List (Event V)) :=
  if !s.data.isEmpty || s.closed then                       -- not_empty_or_closed, 185
    if !s.data.isEmpty then pop front s t i                 -- 192
    else some ({ s with ts := s.ts.set t .idle }, [.noPull t .closed])
  else some ({ s with ts := s.ts.set t (.asleep k) }, [])

/-- One critical section. -/
def step (front : List V → Nat → Bool) (s : State V) : Label V → Option (State V × List (Event V))
  | .push t v =>                                            -- sync_queue.hpp:203-214, 217-230, 241-246
    match s.ts[t]? with
    | some .idle =>
      if s.closed then some (s, [.pushed t v .closed])
      else some ({ s with data := s.data ++ [v], ts := s.ts.map PC.wake }, [.pushed t v .success])   -- 94-95
    | _ => none
  | .busyPush t v =>                                        -- 236
    match s.ts[t]? with
    | some .idle => some (s, [.pushed t v .busy])
    | _ => none
  | .busyPull t =>                                          -- 176-179
    match s.ts[t]? with
    | some .idle => some (s, [.noPull t .busy])
    | _ => none
  | .tryPull t i =>                                         -- 139-148
    match s.ts[t]? with
    | some .idle =>
      if s.data.isEmpty then
        if s.closed then some (s, [.noPull t .closed]) else some (s, [.noPull t .empty])
      else pop front s t i
    | _ => none
  | .pull t k i =>
    match s.ts[t]? with
    | some .idle => waitThenPull front s t k i
    | _ => none
  | .resume t i =>
    match s.ts[t]? with
    | some (.woken k) => waitThenPull front s t k i
    | some .expired =>                                      -- sync_queue_base.hpp:200-203
      if !s.data.isEmpty || s.closed then
        if !s.data.isEmpty then pop front s t i
        else some ({ s with ts := s.ts.set t .idle }, [.noPull t .closed])
      else some ({ s with ts := s.ts.set t .idle }, [.noPull t .timeout])
    | _ => none
  | .spurious t =>
    match s.ts[t]? with
    | some (.asleep k) => some ({ s with ts := s.ts.set t (.woken k) }, [])
    | _ => none
  | .timeout t =>
    match s.ts[t]? with
    | some (.asleep .timed) => some ({ s with ts := s.ts.set t .expired }, [])
    | some (.woken .timed) => some ({ s with ts := s.ts.set t .expired }, [])
    | _ => none
  | .interrupt t =>
    match s.ts[t]? with
    | some (.asleep _) => some ({ s with ts := s.ts.set t .idle }, [.interrupted t])
    | some (.woken _) => some ({ s with ts := s.ts.set t .idle }, [.interrupted t])
    | _ => none
  | .close t =>                                             -- sync_queue_base.hpp:123-124
    match s.ts[t]? with
    | some .idle => some ({ s with closed := true, ts := s.ts.set t .closing }, [.closed t])
    | _ => none
  | .closeNotify t =>                                       -- 126
    match s.ts[t]? with
    | some .closing => some ({ s with ts := (s.ts.set t .idle).map PC.wake }, [.closeReturned t])
    | _ => none
  | .size t =>                                              -- 159-163
    match s.ts[t]? with
    | some .idle => some (s, [.sizeIs t s.data.length])
    | _ => none
  | .empty t =>                                             -- 147-151
    match s.ts[t]? with
    | some .idle => some (s, [.emptyIs t s.data.isEmpty])
    | _ => none
  | .isClosed t =>                                          -- 130-134
    match s.ts[t]? with
    | some .idle => some (s, [.closedIs t s.closed])
    | _ => none
  | .full t =>                                              -- 153-156
    match s.ts[t]? with
    | some .idle => some (s, [.fullIs t false])
    | _ => none
  | .take t =>                                              -- 60-63
    match s.ts[t]? with
    | some .idle => some ({ s with data := [] }, [.taken t s.data])
    | _ => none

/-- `sync_queue`: `pull` takes the first element (sync_queue.hpp:82-83). -/
def fifo (_ : List V) (i : Nat) : Bool := i == 0

/-- `sync_priority_queue`: the front of the heap is an element no other element is greater than
(sync_priority_queue.hpp:78-88 with the contract of `std::push_heap`, `std::pop_heap`). -/
def greatest (less : V → V → Bool) (l : List V) (i : Nat) : Bool :=
  match l[i]? with
  | some v => l.all fun w => !less v w
  | none => false

end Verif.SyncQueue
