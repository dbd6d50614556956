import Verif.WinCondVar.Spec
import Verif.Core.Threads
/-!
# Model of `boost::condition_variable` and `condition_variable_any` on Windows

Models `/repo/include/boost/thread/win32/condition_variable.hpp` lines 45-319 (`basic_cv_list_entry`, `basic_condition_variable`); the wait functions of the two
classes (320 to the end) call `do_wait_until`.

One condition variable and one mutex of the user; any number of threads. What happens under `internal_mutex` (`get_wait_entry`, `remove_waiter_and_reset`, the bodies of
the notify functions) is one step each; so is every wait on a semaphore, and the look at `total_count` before the lock is taken. In the notify functions the
tokens for `wake_sem` are posted before those of the entries: a thread that gets in between can do no more than if all had been posted at once.

Semaphores hold at most `M` = `LONG_MAX` tokens; posting more than fits fails and has no effect. Waiting threads may time out or be interrupted at any moment, also when
a token is there.

Simplifications: accesses are sequentially consistent; creating semaphores and duplicating handles does not fail; reference counting keeps every entry
alive while it is used.
-/

namespace Verif.WinCondVar

/-- `basic_cv_list_entry`, lines 46-112. -/
structure Entry where
  /-- which `wake_sem` the entry has a handle of -/
  epoch : Nat
  /-- tokens in `semaphore` -/
  sem : Nat
  waiters : Nat
  notified : Bool
deriving DecidableEq, Repr

inductive PC where
  | idle
  /-- `do_wait_until` has its entry and still holds the user's mutex (259) -/
  | holding (g : Nat)
  /-- waits on the semaphore of the entry (265) -/
  | sem (g : Nat)
  /-- got a token, tries `wake_sem` (270) -/
  | try_ (g : Nat)
  /-- about to leave the entry (273, 229-232) -/
  | remove (g : Nat) (o : Outcome)
  /-- about to lock the user's mutex again (274, 168-171) -/
  | relock (o : Outcome)
  /-- a notify function that has seen a count other than 0 (282, 303) -/
  | acting (all : Bool)
deriving DecidableEq, Repr

structure Thread where
  pc : PC
  timed : Bool
deriving DecidableEq, Repr

/-- `basic_condition_variable`, lines 122-133, the mutex of the user and the threads. -/
structure State where
  mutex : Option Nat
  /-- `total_count` -/
  total : Nat
  ent : Nat → Entry
  /-- number of entries made so far -/
  ents : Nat
  /-- `generations` -/
  gens : List Nat
  /-- tokens in each `wake_sem` ever made -/
  wake : Nat → Nat
  /-- `wake_sem`, if there is one -/
  cur : Option Nat
  /-- number of `wake_sem`s made so far -/
  epochs : Nat
  ts : List Thread

def init (n : Nat) : State :=
  { mutex := none, total := 0, ent := fun _ => ⟨0, 0, 0, false⟩, ents := 0, gens := [], wake := fun _ => 0, cur := none, epochs := 0,
    ts := List.replicate n ⟨.idle, false⟩ }

inductive Label where
  | lock (t : Nat)
  | unlock (t : Nat)
  | enter (t : Nat) (timed : Bool)
  | release (t : Nat)
  /-- the wait on the semaphore of the entry succeeds -/
  | pass (t : Nat)
  | timeout (t : Nat)
  | interrupt (t : Nat)
  | tryWake (t : Nat)
  | remove (t : Nat)
  | relock (t : Nat)
  | notify (t : Nat) (all : Bool)
  | act (t : Nat)
deriving DecidableEq, Repr

def upd {α : Type} (f : Nat → α) (i : Nat) (x : α) : Nat → α := fun j => if j = i then x else f j

/-- `ReleaseSemaphore` on a semaphore with `k` tokens. -/
def post (M k n : Nat) : Nat := if k + n ≤ M then k + n else k

def State.pc (s : State) (t : Nat) (x : Thread) (p : PC) : State := { s with ts := s.ts.set t { x with pc := p } }

/-- The `wake_sem` of `get_wait_entry`, 178-182: a new one if there is none. -/
def State.wakeSem (s : State) : Nat := s.cur.getD s.epochs

/-- `get_wait_entry`, 175-199. -/
def State.enter (s : State) (t : Nat) (x : Thread) (timed : Bool) : State :=
  let e := s.wakeSem
  let s1 := { s with
    cur := some e
    epochs := if s.cur = none then s.epochs + 1 else s.epochs
    wake := if s.cur = none then upd s.wake e 0 else s.wake
    total := s.total + 1 }                                                               -- 184
  let last := s.gens.getLast?
  if (last.all fun g => (s.ent g).notified) = true then                                  -- 185
    { s1 with                                                                            -- 187-189
      ent := upd s.ent s.ents ⟨e, 0, 1, false⟩, ents := s.ents + 1, gens := s.gens ++ [s.ents]
      ts := s.ts.set t { x with pc := .holding s.ents, timed } }
  else
    let g := last.getD 0
    { s1 with                                                                            -- 193-194
      ent := upd s.ent g { s.ent g with waiters := (s.ent g).waiters + 1 }
      ts := s.ts.set t { x with pc := .holding g, timed } }

/-- `release`, 77-81. -/
def Entry.release (M : Nat) (y : Entry) (n : Nat) : Entry := { y with notified := true, sem := post M y.sem n }

/-- `wake_waiters`, 136-140. -/
def State.wakeWaiters (M : Nat) (s : State) (n : Nat) : State :=
  { s with total := s.total - n, wake := match s.cur with
    | some e => upd s.wake e (post M (s.wake e) n)
    | none => s.wake }

/-- Body of `notify_one`, 287-295. -/
def State.one (M : Nat) (s : State) : State :=
  let s1 := s.wakeWaiters M 1
  { s1 with
    ent := fun g => if g ∈ s.gens then (s.ent g).release M 1 else s.ent g
    gens := s.gens.filter fun g => (s.ent g).waiters ≠ 0 }

/-- Body of `notify_all`, 308-316. -/
def State.all (M : Nat) (s : State) : State :=
  let s1 := s.wakeWaiters M s.total
  { s1 with
    ent := fun g => if g ∈ s.gens then (s.ent g).release M (s.ent g).waiters else s.ent g
    gens := []
    cur := none }

def stepT (M : Nat) (s : State) (t : Nat) (x : Thread) : Label → Option (State × List Event)
  | .lock _ => if x.pc = .idle ∧ s.mutex = none then some ({ s with mutex := some t }, [.locked t]) else none
  | .unlock _ => if x.pc = .idle ∧ s.mutex = some t then some ({ s with mutex := none }, [.unlocked t]) else none
  | .enter _ timed =>                                                                     -- 258-259, 184
    if x.pc = .idle ∧ s.mutex = some t then
      if s.total = M then some (s, [.overflow t]) else some (s.enter t x timed, [.entered t timed])
    else none
  | .release _ =>                                                                         -- 260
    match x.pc with
    | .holding g => some ({ s.pc t x (.sem g) with mutex := none }, [.released t])
    | _ => none
  | .pass _ =>                                                                            -- 265
    match x.pc with
    | .sem g =>
      if (s.ent g).sem = 0 then none
      else some ({ s.pc t x (.try_ g) with ent := upd s.ent g { s.ent g with sem := (s.ent g).sem - 1 } }, [])
    | _ => none
  | .timeout _ =>                                                                         -- 265-268
    match x.pc with
    | .sem g => if x.timed then some (s.pc t x (.remove g .timeout), []) else none
    | _ => none
  | .interrupt _ =>                                                                       -- 265
    match x.pc with
    | .sem g => some (s.pc t x (.remove g .interrupted), [])
    | _ => none
  | .tryWake _ =>                                                                         -- 270, 98-103
    match x.pc with
    | .try_ g =>
      let e := (s.ent g).epoch
      if s.wake e = 0 then some (s.pc t x (.sem g), [])
      else some ({ s.pc t x (.remove g .notified) with wake := upd s.wake e (s.wake e - 1) }, [.woke t])
    | _ => none
  | .remove _ =>                                                                          -- 218-225, 273
    match x.pc with
    | .remove g o => some ({ s.pc t x (.relock o) with ent := upd s.ent g { s.ent g with waiters := (s.ent g).waiters - 1 } }, [])
    | _ => none
  | .relock _ =>                                                                          -- 274-275, 168-171
    match x.pc with
    | .relock o => if s.mutex = none then some ({ s.pc t x .idle with mutex := some t }, [.returned t o]) else none
    | _ => none
  | .notify _ all =>                                                                      -- 280, 301
    if x.pc = .idle then
      if s.total = 0 then some (s, [.notify t all false]) else some (s.pc t x (.acting all), [])
    else none
  | .act _ =>                                                                             -- 282-295, 303-316
    match x.pc with
    | .acting all =>
      if s.total = 0 then some (s.pc t x .idle, [.notify t all false])
      else some ((if all then s.all M else s.one M).pc t x .idle, [.notify t all true])
    | _ => none

def Label.tid : Label → Nat
  | .lock t | .unlock t | .enter t _ | .release t | .pass t | .timeout t | .interrupt t | .tryWake t | .remove t | .relock t | .notify t _ | .act t => t

def step (M : Nat) (s : State) (l : Label) : Option (State × List Event) :=
  match s.ts[l.tid]? with
  | some x => stepT M s l.tid x l
  | none => none

end Verif.WinCondVar
