import Verif.Core.Run
import Verif.Core.Threads
/-!
# Model of `boost::concurrent::sync_timed_queue`

Models `/repo/include/boost/thread/concurrent_queues/sync_timed_queue.hpp` lines 30-460 (with `sync_queue_base.hpp` 120-127, 183-204 and
`sync_priority_queue.hpp` 60-88, 171-230, from which it derives).

One label is one critical section under `mtx_`, from taking the mutex to releasing it or waiting on `cond_`. Every reading of
a clock is chosen by the label, so clocks run at any speed. Two clocks occur: the queue's `Clock`, which may go backwards
unless `Cfg.monotone`, and `steady_clock`, in which the deadline of `pull_for` is expressed and which never goes backwards.

Simplifications: copying and moving elements does not fail; time points are integers; the heap functions of the standard library are
modelled by their contract (the front of the heap is a greatest element, which under `scheduled_type::operator<`, 58-61, is one with the
earliest time; the label says which one). `size`, `empty`, `full`, `closed` are those of `sync_queue_base`, modelled in `SyncQueue`.
-/

namespace Verif.TimedQueue

structure Cfg where
  /-- the queue's `Clock` never goes backwards -/
  monotone : Bool
  /-- `some p`: `Clock` is not `steady_clock` and waits are cut after `p` (72-81, 91-101); `none`: `steady_clock` (64-70) -/
  poll : Option Int

/-- The blocking pulls. -/
inductive Kind where
  /-- `pull()` (341-347, 371-377): throws when closed -/
  | throwing
  /-- `wait_pull` (438-451) -/
  | status
  /-- `pull_until(tp)` (383-389) -/
  | until_ (tp : Int)
  /-- `pull_for`, with the deadline `tp` on `steady_clock` computed in line 302 (395-401) -/
  | for_ (tp : Int)
deriving DecidableEq, Repr

inductive PC where
  | idle
  /-- in `wait_until_not_empty_or_closed[_until]` (268, 287, 309) -/
  | asleepEmpty (k : Kind)
  | wokenEmpty (k : Kind)
  /-- the deadline of that wait has passed -/
  | expired (k : Kind)
  /-- in `cond_.wait_until(lk, tpmin)` (274, 294, 316); `wake` is `tpmin` for the waits on `Clock`, and unknown for `pull_for` -/
  | asleepTimed (k : Kind) (wake : Option Int)
  | wokenTimed (k : Kind)
  /-- `close()` has set the flag and is about to notify (sync_queue_base.hpp:126) -/
  | closing
deriving DecidableEq, Repr

def PC.wake : PC → PC
  | .asleepEmpty k => .wokenEmpty k
  | .asleepTimed k _ => .wokenTimed k
  | p => p

inductive Event (V : Type) where
  /-- a push of `v` due at `due`; `ok = false` when the queue was closed -/
  | pushed (t : Nat) (v : V) (due : Int) (ok : Bool)
  /-- a pull delivered `v`, pushed with time `due`, having read `now` from the clock -/
  | pulled (t : Nat) (v : V) (due now : Int)
  /-- a pull returned `closed` (or threw), having read `now` -/
  | closedPull (t : Nat) (now : Int)
  /-- `try_pull` returned `empty` / `not_ready`, having read `now` -/
  | emptyPull (t : Nat) (now : Int)
  | notReadyPull (t : Nat) (now : Int)
  | busyPull (t : Nat)
  /-- a timed pull with deadline `tp` gave up after reading `now` from the clock of the due times and `late` from the clock of the deadline;
  `empty = true`: status `timeout`, `empty = false`: status `not_ready` -/
  | timedOut (t : Nat) (empty : Bool) (tp now late : Int)
  /-- `top()` of an empty queue was evaluated -/
  | garbage (t : Nat)
  | closed (t : Nat)
  | closeReturned (t : Nat)
  | interrupted (t : Nat)
deriving DecidableEq, Repr

structure State (V : Type) where
  data : List (V × Int)
  closed : Bool
  /-- the last value read from `Clock` / from `steady_clock`, by anyone -/
  now : Int
  steady : Int
  ts : List PC
deriving DecidableEq, Repr

def init (V : Type) (now steady : Int) (n : Nat) : State V :=
  { data := [], closed := false, now, steady, ts := List.replicate n .idle }

/-- The clock readings of one critical section, in the order of the code: due test and deadline test before the wait for an element,
the same after it, and the reading in `limit_timepoint`. -/
structure Reads where
  due1 : Int
  dead1 : Int
  due2 : Int
  dead2 : Int
  lim : Int
deriving DecidableEq, Repr

inductive Label (V : Type) where
  /-- `push`, `try_push` (188-244) -/
  | push (t : Nat) (v : V) (due : Int)
  /-- `try_pull` (405-434), `nonblocking_pull` with the mutex (455-460); `now` is the reading, `i` the element at the front -/
  | tryPull (t : Nat) (now : Int) (i : Nat)
  | busyPull (t : Nat)
  /-- `pull`, `wait_pull`, `pull_until`, `pull_for` up to the return or the first wait -/
  | pull (t : Nat) (k : Kind) (r : Reads) (i : Nat)
  | resume (t : Nat) (r : Reads) (i : Nat)
  | spurious (t : Nat)
  /-- a timed wait ends because its clock reads `r` -/
  | timeout (t : Nat) (r : Int)
  | interrupt (t : Nat)
  | close (t : Nat)
  | closeNotify (t : Nat)
deriving DecidableEq, Repr

variable {V : Type}

/-- `data_.top().time`: the earliest time (58-61 with the contract of the heap functions). -/
def topTime : List (V × Int) → Option Int
  | [] => none
  | x :: xs => some (xs.foldl (fun m y => min m y.2) x.2)

/-- Reading `Clock`. -/
def readClock (c : Cfg) (s : State V) (r : Int) : Option (State V) :=
  if c.monotone = true ∧ r < s.now then none else some { s with now := r }

/-- Reading `steady_clock`. -/
def readSteady (s : State V) (r : Int) : Option (State V) :=
  if r < s.steady then none else some { s with steady := r }

/-- `not_empty_and_time_reached`, 248-257. -/
def reached (s : State V) (now : Int) : Bool :=
  match topTime s.data with
  | none => false
  | some m => decide (m ≤ now)

/-- `pull(lk)`, 322-368: remove the front of the heap, an element with the earliest time. -/
def pop (s : State V) (t i : Nat) (now : Int) : Option (State V × List (Event V)) :=
  match s.data[i]? with
  | none => none
  | some (v, due) =>
    if topTime s.data = some due then
      some ({ s with data := s.data.eraseIdx i, ts := s.ts.set t .idle }, [.pulled t v due now])
    else none

/-- The three tests 265-266, 270-271, 283-285, 289-291, 305-307, 311-313; `cont` is what follows if none of them returns. -/
def check (c : Cfg) (s : State V) (t : Nat) (k : Kind) (i : Nat) (due dead : Int)
    (cont : State V → Option (State V × List (Event V))) : Option (State V × List (Event V)) :=
  match readClock c s due with
  | none => none
  | some s =>
    if reached s due then pop s t i due
    else if s.closed then some ({ s with ts := s.ts.set t .idle }, [.closedPull t due])
    else match k with
      | .throwing => cont s
      | .status => cont s
      | .until_ tp =>
        match readClock c s dead with
        | none => none
        | some s =>
          if tp ≤ dead then some ({ s with ts := s.ts.set t .idle }, [.timedOut t s.data.isEmpty tp due dead]) else cont s
      | .for_ tp =>
        match readSteady s dead with
        | none => none
        | some s =>
          if tp ≤ dead then some ({ s with ts := s.ts.set t .idle }, [.timedOut t s.data.isEmpty tp due dead]) else cont s

/-- `limit_timepoint`, 64-81. -/
def limit (c : Cfg) (tp now : Int) : Int :=
  match c.poll with
  | none => tp
  | some p => min tp (now + p)

/-- Second half of the loop body: 270-274, 289-294, 311-316. -/
def second (c : Cfg) (s : State V) (t : Nat) (k : Kind) (i : Nat) (r : Reads) : Option (State V × List (Event V)) :=
  check c s t k i r.due2 r.dead2 fun s =>
    match topTime s.data with
    | none => some ({ s with ts := s.ts.set t .idle }, [.garbage t])
    | some top =>
      match readClock c s r.lim with
      | none => none
      | some s =>
        let wake : Option Int := match k with
          | .throwing => some (limit c top r.lim)
          | .status => some (limit c top r.lim)
          | .until_ tp => some (min tp (limit c top r.lim))
          | .for_ _ => none
        some ({ s with ts := s.ts.set t (.asleepTimed k wake) }, [])

/-- One round of the loop from its top: 265-268, 283-287, 305-309, and on if there is no reason to wait. -/
def first (c : Cfg) (s : State V) (t : Nat) (k : Kind) (i : Nat) (r : Reads) : Option (State V × List (Event V)) :=
  check c s t k i r.due1 r.dead1 fun s =>
    if s.data.isEmpty && !s.closed then some ({ s with ts := s.ts.set t (.asleepEmpty k) }, [])
    else second c s t k i r

/-- One critical section. -/
def step (c : Cfg) (s : State V) : Label V → Option (State V × List (Event V))
  | .push t v due =>                                    -- sync_priority_queue.hpp:171-230
    match s.ts[t]? with
    | some .idle =>
      if s.closed then some (s, [.pushed t v due false])
      else some ({ s with data := s.data ++ [(v, due)], ts := s.ts.map PC.wake }, [.pushed t v due true])
    | _ => none
  | .tryPull t now i =>                                 -- 407-414, 419-426
    match s.ts[t]? with
    | some .idle =>
      match readClock c s now with
      | none => none
      | some s =>
        if reached s now then pop s t i now
        else if s.closed then some (s, [.closedPull t now])
        else if s.data.isEmpty then some (s, [.emptyPull t now])
        else some (s, [.notReadyPull t now])
    | _ => none
  | .busyPull t =>                                      -- 458
    match s.ts[t]? with
    | some .idle => some (s, [.busyPull t])
    | _ => none
  | .pull t k r i =>
    match s.ts[t]? with
    | some .idle => first c s t k i r
    | _ => none
  | .resume t r i =>
    match s.ts[t]? with
    | some (.wokenEmpty k) =>
      if s.data.isEmpty && !s.closed then some ({ s with ts := s.ts.set t (.asleepEmpty k) }, []) else second c s t k i r
    | some (.expired k) => second c s t k i r           -- the result of the wait is not looked at
    | some (.wokenTimed k) => first c s t k i r
    | _ => none
  | .spurious t =>
    match s.ts[t]? with
    | some (.asleepEmpty k) => some ({ s with ts := s.ts.set t (.wokenEmpty k) }, [])
    | some (.asleepTimed k _) => some ({ s with ts := s.ts.set t (.wokenTimed k) }, [])
    | _ => none
  | .timeout t r =>
    match s.ts[t]? with
    | some (.asleepEmpty (.until_ tp)) | some (.wokenEmpty (.until_ tp)) =>
      match readClock c s r with
      | none => none
      | some s => if tp ≤ r then some ({ s with ts := s.ts.set t (.expired (.until_ tp)) }, []) else none
    | some (.asleepEmpty (.for_ tp)) | some (.wokenEmpty (.for_ tp)) =>
      match readSteady s r with
      | none => none
      | some s => if tp ≤ r then some ({ s with ts := s.ts.set t (.expired (.for_ tp)) }, []) else none
    | some (.asleepTimed k (some w)) =>
      match readClock c s r with
      | none => none
      | some s => if w ≤ r then some ({ s with ts := s.ts.set t (.wokenTimed k) }, []) else none
    | some (.asleepTimed k none) => some ({ s with ts := s.ts.set t (.wokenTimed k) }, [])
    | _ => none
  | .interrupt t =>
    match s.ts[t]? with
    | some (.asleepEmpty _) => some ({ s with ts := s.ts.set t .idle }, [.interrupted t])
    | some (.wokenEmpty _) => some ({ s with ts := s.ts.set t .idle }, [.interrupted t])
    | some (.asleepTimed _ _) => some ({ s with ts := s.ts.set t .idle }, [.interrupted t])
    | some (.wokenTimed _) => some ({ s with ts := s.ts.set t .idle }, [.interrupted t])
    | _ => none
  | .close t =>                                         -- sync_queue_base.hpp:122-125
    match s.ts[t]? with
    | some .idle => some ({ s with closed := true, ts := s.ts.set t .closing }, [.closed t])
    | _ => none
  | .closeNotify t =>                                   -- sync_queue_base.hpp:126
    match s.ts[t]? with
    | some .closing => some ({ s with ts := (s.ts.set t .idle).map PC.wake }, [.closeReturned t])
    | _ => none

end Verif.TimedQueue
