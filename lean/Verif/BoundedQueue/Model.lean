import Verif.Core.Run
import Verif.Core.Threads
/-!
# Model of `boost::concurrent::sync_bounded_queue`

Models `/repo/include/boost/thread/concurrent_queues/sync_bounded_queue.hpp` lines 32-698.

One label is one critical section under `mtx_`, or one notification made after releasing it. The ring buffer, its two indices and
the two waiter counters are those of the code.

Simplifications: copying and moving elements does not fail; `size_type` does not overflow; the `nonblocking_` forms may find the
mutex busy at any time; the deprecated names (`push`, `try_push`, `pull`, ...) run the same code as the `_back`/`_front` forms and
differ only in how they report `full`, `empty` and `closed`, so they are not listed again.
-/

namespace Verif.BoundedQueue

/-- `push_back`/`pull_front` throw `sync_queue_is_closed`, `wait_push_back`/`wait_pull_front` return a status. -/
inductive Kind where
  | throwing
  | status
deriving DecidableEq, Repr

inductive Status where
  | success
  /-- the status `closed` is returned -/
  | closed
  /-- `sync_queue_is_closed` is thrown -/
  | threw
  | full
  | empty
  | busy
deriving DecidableEq, Repr

inductive PC (V : Type) where
  | idle
  /-- a consumer waits on `not_empty_` (416, 427) -/
  | asleepE (k : Kind)
  | wokenE (k : Kind)
  /-- a producer waits on `not_full_` (587) -/
  | asleepF (k : Kind) (v : V)
  | wokenF (k : Kind) (v : V)
  /-- a producer has released the mutex and is about to `not_empty_.notify_one()` (162) -/
  | notifyE
  /-- a consumer has released the mutex and is about to `not_full_.notify_one()` (171) -/
  | notifyF
  /-- `close()` is about to `not_empty_.notify_all()` (277) -/
  | closing1
  /-- `close()` is about to `not_full_.notify_all()` (278) -/
  | closing2
deriving DecidableEq, Repr

inductive Event (V : Type) where
  /-- `push_back`, `try_push_back`, `nonblocking_push_back` -/
  | pushed (t : Nat) (v : V) (r : Status)
  /-- `wait_push_back` -/
  | waitPushed (t : Nat) (v : V) (r : Status)
  | pulled (t : Nat) (v : V)
  | noPull (t : Nat) (r : Status)
  /-- a slot that was never filled was read -/
  | garbage (t : Nat)
  | closed (t : Nat)
  | closeReturned (t : Nat)
  | sizeIs (t : Nat) (n : Nat)
  | capacityIs (t : Nat) (n : Nat)
  | emptyIs (t : Nat) (b : Bool)
  | fullIs (t : Nat) (b : Bool)
  | closedIs (t : Nat) (b : Bool)
  | interrupted (t : Nat)
deriving DecidableEq, Repr

/-- The members, 91-100. -/
structure State (V : Type) where
  waitingFull : Nat
  waitingEmpty : Nat
  data : List (Option V)
  inp : Nat
  out : Nat
  capacity : Nat
  closed : Bool
  ts : List (PC V)
deriving DecidableEq, Repr

/-- The constructor, 231-236. -/
def init (V : Type) (maxElems n : Nat) : State V :=
  { waitingFull := 0, waitingEmpty := 0, data := List.replicate (maxElems + 1) none, inp := 0, out := 0,
    capacity := maxElems + 1, closed := false, ts := List.replicate n .idle }

inductive Label (V : Type) where
  /-- `push_back` (600-604) or `wait_push_back` (543-554) up to the return, the notification or the first wait -/
  | push (t : Nat) (k : Kind) (v : V)
  /-- `try_push_back` (523-540), `nonblocking_push_back` with the mutex (567-573) -/
  | tryPush (t : Nat) (v : V)
  | busyPush (t : Nat) (v : V)
  /-- `pull_front` (467-481), `wait_pull_front` (484-498) -/
  | pull (t : Nat) (k : Kind)
  /-- `try_pull_front` (351-367), `nonblocking_pull_front` with the mutex (389-397) -/
  | tryPull (t : Nat)
  | busyPull (t : Nat)
  /-- a woken thread re-takes the mutex and goes round its loop -/
  | resume (t : Nat)
  /-- `notify_one`; `target` is the thread woken, `none` when nobody waits -/
  | notify (t : Nat) (target : Option Nat)
  | spurious (t : Nat)
  /-- the thread is interrupted while it waits -/
  | interrupt (t : Nat)
  /-- the thread is interrupted after its wait has ended, before it looks at the queue again -/
  | interruptLate (t : Nat)
  | close (t : Nat)
  | closeNotify (t : Nat)
  | size (t : Nat)
  | capacity (t : Nat)
  | empty (t : Nat)
  | full (t : Nat)
  | isClosed (t : Nat)
deriving DecidableEq, Repr

variable {V : Type}

def PC.isAsleepE : PC V → Bool
  | .asleepE _ => true
  | _ => false
def PC.isAsleepF : PC V → Bool
  | .asleepF _ _ => true
  | _ => false

def PC.wakeE : PC V → PC V
  | .asleepE k => .wokenE k
  | p => p
def PC.wakeF : PC V → PC V
  | .asleepF k v => .wokenF k v
  | p => p

/-- `inc`, 102-105. -/
def State.inc (s : State V) (i : Nat) : Nat := (i + 1) % s.capacity
/-- `empty(lk)`, 107-114. -/
def State.isEmpty (s : State V) : Bool := s.inp == s.out
/-- `full(lk)`, 115-122. -/
def State.isFull (s : State V) : Bool := s.inc s.inp == s.out
/-- `size(lk)`, 127-131; `capacity(lk)` is `capacity_-1`. -/
def State.size (s : State V) : Nat :=
  if s.isFull then s.capacity - 1 else (s.inp + (s.capacity - 1) - s.out) % (s.capacity - 1)

def pushEvent (t : Nat) (k : Kind) (v : V) (r : Status) : Event V :=
  match k with
  | .throwing => .pushed t v r
  | .status => .waitPushed t v r

/-- `push_at` and `set_in`, 211-221, with `notify_not_empty_if_needed`, 156-164. -/
def pushAt (s : State V) (t : Nat) (v : V) (e : Event V) : Option (State V × List (Event V)) :=
  let s := { s with data := s.data.set s.inp (some v), inp := s.inc s.inp }
  if s.waitingEmpty > 0 then
    some ({ s with waitingEmpty := s.waitingEmpty - 1, ts := s.ts.set t .notifyE }, [e])
  else some ({ s with ts := s.ts.set t .idle }, [e])

/-- `pull_front(elem, lk)`, 197-209, with `notify_not_full_if_needed`, 165-173. -/
def pullFront (s : State V) (t : Nat) : Option (State V × List (Event V)) :=
  let e : Event V := match s.data[s.out]? with
    | some (some v) => .pulled t v
    | _ => .garbage t
  let s := { s with out := s.inc s.out }
  if s.waitingFull > 0 then
    some ({ s with waitingFull := s.waitingFull - 1, ts := s.ts.set t .notifyF }, [e])
  else some ({ s with ts := s.ts.set t .idle }, [e])

/-- One round of `wait_until_not_full` (578-588) with the lock held, then `push_at`. -/
def roundPush (s : State V) (t : Nat) (k : Kind) (v : V) : Option (State V × List (Event V)) :=
  if s.closed then some ({ s with ts := s.ts.set t .idle }, [pushEvent t k v .threw])       -- 580
  else if s.isFull then
    some ({ s with waitingFull := s.waitingFull + 1, ts := s.ts.set t (.asleepF k v) }, [])   -- 586-587
  else pushAt s t v (pushEvent t k v .success)

/-- One round of `wait_until_not_empty` (411-417, 422-428) with the lock held, then `pull_front`. -/
def roundPull (s : State V) (t : Nat) (k : Kind) : Option (State V × List (Event V)) :=
  if !s.isEmpty then pullFront s t
  else if s.closed then
    some ({ s with ts := s.ts.set t .idle },
      [.noPull t (match k with | .throwing => .threw | .status => .closed)])                -- 414, 425, 489
  else some ({ s with waitingEmpty := s.waitingEmpty + 1, ts := s.ts.set t (.asleepE k) }, [])

/-- One critical section or notification. -/
def step (s : State V) : Label V → Option (State V × List (Event V))
  | .push t k v =>
    match s.ts[t]? with
    | some .idle =>
      match k with
      | .throwing => roundPush s t k v                             -- 600-604
      | .status =>                                                 -- 545-547
        if s.closed then some (s, [.waitPushed t v .closed]) else roundPush s t k v
    | _ => none
  | .tryPush t v =>                                                -- 525-532
    match s.ts[t]? with
    | some .idle =>
      if s.closed then some (s, [.pushed t v .closed])
      else if s.isFull then some (s, [.pushed t v .full])
      else pushAt s t v (.pushed t v .success)
    | _ => none
  | .busyPush t v =>                                               -- 571
    match s.ts[t]? with
    | some .idle => some (s, [.pushed t v .busy])
    | _ => none
  | .pull t k =>                                                   -- 467-472, 484-492
    match s.ts[t]? with
    | some .idle => roundPull s t k
    | _ => none
  | .tryPull t =>                                                  -- 353-359
    match s.ts[t]? with
    | some .idle =>
      if s.isEmpty then
        if s.closed then some (s, [.noPull t .closed]) else some (s, [.noPull t .empty])
      else pullFront s t
    | _ => none
  | .busyPull t =>                                                 -- 392-395
    match s.ts[t]? with
    | some .idle => some (s, [.noPull t .busy])
    | _ => none
  | .resume t =>
    match s.ts[t]? with
    | some (.wokenE k) => roundPull s t k
    | some (.wokenF k v) => roundPush s t k v
    | _ => none
  | .notify t target =>
    match s.ts[t]? with
    | some .notifyE =>                                             -- 162
      match target with
      | none => if s.ts.any PC.isAsleepE then none else some ({ s with ts := s.ts.set t .idle }, [])
      | some u =>
        match s.ts[u]? with
        | some (.asleepE k) => some ({ s with ts := (s.ts.set t .idle).set u (.wokenE k) }, [])
        | _ => none
    | some .notifyF =>                                             -- 171
      match target with
      | none => if s.ts.any PC.isAsleepF then none else some ({ s with ts := s.ts.set t .idle }, [])
      | some u =>
        match s.ts[u]? with
        | some (.asleepF k v) => some ({ s with ts := (s.ts.set t .idle).set u (.wokenF k v) }, [])
        | _ => none
    | _ => none
  | .spurious t =>
    match s.ts[t]? with
    | some (.asleepE k) => some ({ s with ts := s.ts.set t (.wokenE k) }, [])
    | some (.asleepF k v) => some ({ s with ts := s.ts.set t (.wokenF k v) }, [])
    | _ => none
  | .interrupt t =>                       -- `condition_variable::wait` throws; the other waiters see at most a spurious wake-up
    match s.ts[t]? with
    | some (.asleepE _) => some ({ s with ts := s.ts.set t .idle }, [.interrupted t])
    | some (.asleepF _ _) => some ({ s with ts := s.ts.set t .idle }, [.interrupted t])
    | _ => none
  | .interruptLate t =>
    match s.ts[t]? with
    | some (.wokenE _) => some ({ s with ts := s.ts.set t .idle }, [.interrupted t])
    | some (.wokenF _ _) => some ({ s with ts := s.ts.set t .idle }, [.interrupted t])
    | _ => none
  | .close t =>                                                    -- 274-275
    match s.ts[t]? with
    | some .idle => some ({ s with closed := true, ts := s.ts.set t .closing1 }, [.closed t])
    | _ => none
  | .closeNotify t =>
    match s.ts[t]? with
    | some .closing1 => some ({ s with ts := (s.ts.set t .closing2).map PC.wakeE }, [])                    -- 277
    | some .closing2 => some ({ s with ts := (s.ts.set t .idle).map PC.wakeF }, [.closeReturned t])        -- 278
    | _ => none
  | .size t =>                                                     -- 314-318
    match s.ts[t]? with
    | some .idle => some (s, [.sizeIs t s.size])
    | _ => none
  | .capacity t =>                                                 -- 307-311
    match s.ts[t]? with
    | some .idle => some (s, [.capacityIs t (s.capacity - 1)])
    | _ => none
  | .empty t =>                                                    -- 294-298
    match s.ts[t]? with
    | some .idle => some (s, [.emptyIs t s.isEmpty])
    | _ => none
  | .full t =>                                                     -- 300-304
    match s.ts[t]? with
    | some .idle => some (s, [.fullIs t s.isFull])
    | _ => none
  | .isClosed t =>                                                 -- 282-286
    match s.ts[t]? with
    | some .idle => some (s, [.closedIs t s.closed])
    | _ => none

end Verif.BoundedQueue
