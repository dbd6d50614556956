import Verif.Core.Run
/-!
# Model of `thread_v2::upgrade_mutex` and `thread_v2::shared_mutex`

Models `/repo/include/boost/thread/v2/shared_mutex.hpp` 163-1041 with `BOOST_THREAD_PROVIDES_SHARED_MUTEX_UPWARDS_CONVERSIONS`.

* `thread_v2::shared_mutex` (163-422) is the same code without upgrade ownership and with a larger limit of readers: its histories are the histories of the model in which no upgrade operation is called.
  (`no_writer` is `no_writer_no_upgrader` if there is no upgrade owner, and so on.)
* Every member function holds `mut_` for its whole body, except inside the waits on `gate1_` and `gate2_`. So a call is one step up to its return or first sleep, and each re-test of a wait predicate,
  with all that follows up to the return or next sleep, is one step.
* `state_` is the triple of `write_entered_`, `upgradable_entered_` and the number of readers; `Verif.V2Mutex.Word` proves that the bit operations of the code do on the packed word what is written here.
* Deadlines: a time-out may fire at any moment. All timed variants of an operation run the same code and are one operation.
* A wait may wake up spuriously, and it is an interruption point: it may throw (label `interrupt`).
* `BOOST_ASSERT` is on: if it fails, the program ends (`dead`).
* `limit` is the value `n_readers_`, the largest number of readers.
-/

namespace Verif.V2Mutex

def upd {α : Type} (f : Nat → α) (i : Nat) (x : α) : Nat → α := fun j => if j = i then x else f j

@[grind =] theorem upd_apply {α : Type} (f : Nat → α) (i j : Nat) (x : α) : upd f i x j = if j = i then x else f j := rfl

/-- Requests that may have to wait. -/
inductive Op where
  /-- `lock` 653-659, `try_lock_for/until`, `timed_lock` 674-712 -/
  | lock
  /-- `lock_shared` 729-736 and its timed forms 753-783 -/
  | shared
  /-- `lock_upgrade` 807-814 and its timed forms 831-861 -/
  | upgrade
  /-- `try_unlock_shared_and_lock_for/until` 895-917 -/
  | sharedToExclusive
  /-- `try_unlock_shared_and_lock_upgrade_for/until` 950-962 -/
  | sharedToUpgrade
  /-- `unlock_upgrade_and_lock` 981-991, `try_unlock_upgrade_and_lock_for/until` 1009-1028 -/
  | upgradeToExclusive
deriving DecidableEq, Repr

/-- Attempts that do not wait. -/
inductive TryOp where
  | lock                -- try_lock 661-670
  | shared              -- try_lock_shared 738-749
  | upgrade             -- try_lock_upgrade 816-827
  | sharedToExclusive   -- try_unlock_shared_and_lock 881-891
  | sharedToUpgrade     -- try_unlock_shared_and_lock_upgrade 936-946
  | upgradeToExclusive  -- try_unlock_upgrade_and_lock 993-1005
deriving DecidableEq, Repr

/-- Releases, and conversions to less. -/
inductive Down where
  | unlock              -- unlock 715-725
  | unlockShared        -- unlock_shared 786-803
  | unlockUpgrade       -- unlock_upgrade 864-876
  | exclusiveToShared   -- unlock_and_lock_shared 921-931
  | upgradeToShared     -- unlock_upgrade_and_lock_shared 966-977
  | exclusiveToUpgrade  -- unlock_and_lock_upgrade 1031-1041
deriving DecidableEq, Repr

inductive Sleep where
  /-- blocked on the condition variable -/
  | asleep
  /-- notified or spuriously woken -/
  | awake
  /-- the deadline has passed -/
  | expired
deriving DecidableEq, Repr

/-- Where a thread is. -/
inductive PC where
  | idle
  /-- waiting on `gate1_` -/
  | gate1 (op : Op) (timed : Bool) (sl : Sleep)
  /-- waiting on `gate2_`; `saved` is the local variable `num_readers` -/
  | gate2 (op : Op) (saved : Nat) (timed : Bool) (sl : Sleep)
deriving DecidableEq, Repr

structure State where
  /-- number of threads -/
  threads : Nat
  limit : Nat
  /-- `write_entered_` -/
  w : Bool
  /-- `upgradable_entered_` -/
  u : Bool
  /-- the number of readers -/
  n : Nat
  pc : Nat → PC
  dead : Bool

/-- The constructor, 639-644. -/
def init (threads limit : Nat) : State := { threads := threads, limit := limit, w := false, u := false, n := 0, pc := fun _ => .idle, dead := false }

inductive Event where
  /-- the call cannot be granted at once -/
  | blocked (t : Nat) (op : Op)
  /-- a conversion is called -/
  | called (t : Nat) (op : Op)
  | granted (t : Nat) (op : Op)
  | timedOut (t : Nat) (op : Op)
  | tried (t : Nat) (op : TryOp) (result : Bool)
  | down (t : Nat) (d : Down)
  /-- the call ends with `thread_interrupted` -/
  | threw (t : Nat) (op : Op)
  /-- an assertion fails in the call -/
  | callAborts (t : Nat) (op : Op)
  | tryAborts (t : Nat) (op : TryOp)
  | downAborts (t : Nat) (d : Down)
deriving DecidableEq, Repr

inductive Label where
  | call (t : Nat) (op : Op) (timed : Bool)
  | tryCall (t : Nat) (op : TryOp)
  /-- `pick`: the thread chosen by `notify_one`, if that is called -/
  | down (t : Nat) (d : Down) (pick : Option Nat)
  | spurious (t : Nat)
  | timeout (t : Nat)
  | interrupt (t : Nat)
  /-- a thread back from its wait has locked `mut_` again -/
  | resume (t : Nat)
deriving DecidableEq, Repr

/-- `no_writer_no_upgrader` 465-468. -/
def State.noWriterNoUpgrader (s : State) : Bool := !s.w && !s.u
/-- `no_writer_no_max_readers` 459-463. -/
def State.noWriterNoMaxReaders (s : State) : Bool := !s.w && s.n != s.limit
/-- `no_writer_no_upgrader_no_max_readers` 484-488. -/
def State.noWriterNoUpgraderNoMaxReaders (s : State) : Bool := !s.w && !s.u && s.n != s.limit
/-- `no_readers` 500-503. -/
def State.noReaders (s : State) : Bool := s.n == 0

/-- The predicate of the wait on `gate1_`. -/
def Op.ready (s : State) : Op → Bool
  | .lock => s.noWriterNoUpgrader                          -- 656, 678, 699
  | .shared => s.noWriterNoMaxReaders                      -- 732, 757, 774
  | .upgrade => s.noWriterNoUpgraderNoMaxReaders           -- 810, 835, 852
  | .sharedToExclusive => s.noWriterNoUpgrader             -- 900
  | .sharedToUpgrade => s.noWriterNoUpgrader               -- 955
  | .upgradeToExclusive => true                            -- does not wait there

/-- May `op` be called with, or without, a deadline? -/
def Op.hasForm : Op → Bool → Bool
  | .sharedToExclusive, timed => timed
  | .sharedToUpgrade, timed => timed
  | _, _ => true

/-- Thread `t` goes to wait on `gate2_`, or need not (658, 684, 705, 908, 990, 1019). -/
def State.enter2 (s : State) (t : Nat) (op : Op) (saved : Nat) (timed : Bool) : State × Bool :=
  if s.noReaders then ({ s with pc := upd s.pc t .idle }, true) else ({ s with pc := upd s.pc t (.gate2 op saved timed .asleep) }, false)

/-- What happens when the predicate of the wait on `gate1_` holds; the result says whether the call is at its end. -/
def State.pass1 (s : State) (t : Nat) (timed : Bool) : Op → State × Bool
  -- state_ |= write_entered_ (657, 683, 704)
  | .lock => ({ s with w := true }.enter2 t .lock 0 timed)
  -- (733-735, 762-764, 779-781)
  | .shared => ({ s with n := s.n + 1, pc := upd s.pc t .idle }, true)
  -- (811-813, 840-842, 857-859)
  | .upgrade => ({ s with n := s.n + 1, u := true, pc := upd s.pc t .idle }, true)
  -- (905-907)
  | .sharedToExclusive => ({ s with n := s.n - 1, w := true }.enter2 t .sharedToExclusive (s.n - 1) timed)
  -- (960)
  | .sharedToUpgrade => ({ s with u := true, pc := upd s.pc t .idle }, true)
  -- (987-989, 1016-1018)
  | .upgradeToExclusive => ({ s with u := false, n := s.n - 1, w := true }.enter2 t .upgradeToExclusive (s.n - 1) timed)

/-- The deadline has passed at `gate2_`. -/
def State.fail2 (s : State) (t saved : Nat) : Op → State
  -- (911-913)
  | .sharedToExclusive => { s with w := false, n := saved + 1, pc := upd s.pc t .idle }
  -- (1022-1024)
  | .upgradeToExclusive => { s with w := false, u := true, n := saved + 1, pc := upd s.pc t .idle }
  -- (687, 708)
  | _ => { s with w := false, pc := upd s.pc t .idle }

/-- The assertions at the beginning of a conversion or release. -/
def Op.asserts (s : State) : Op → Bool
  | .sharedToExclusive => 0 < s.n                  -- 899
  | .sharedToUpgrade => 0 < s.n                    -- 954
  | .upgradeToExclusive => !s.w && s.u && 0 < s.n  -- 984-986, 1013-1015
  | _ => true

/-- Events that tell of the call of a conversion. -/
def Op.callEvents (t : Nat) : Op → List Event
  | .lock => []
  | .shared => []
  | .upgrade => []
  | op => [.called t op]

def TryOp.asserts (s : State) : TryOp → Bool
  | .sharedToExclusive => 0 < s.n                  -- 884
  | .sharedToUpgrade => 0 < s.n                    -- 939
  | .upgradeToExclusive => !s.w && s.u && 0 < s.n  -- 996-998
  | _ => true

def TryOp.ready (s : State) : TryOp → Bool
  | .lock => !s.w && !s.u && s.n == 0                          -- no_writer_no_upgrader_no_readers 470-475, 664
  | .shared => s.noWriterNoMaxReaders                          -- 741
  | .upgrade => s.noWriterNoUpgraderNoMaxReaders               -- 819
  | .sharedToExclusive => !s.w && !s.u && s.n == 1             -- no_writer_no_upgrader_one_reader 477-482, 885
  | .sharedToUpgrade => s.noWriterNoUpgrader                   -- 940
  | .upgradeToExclusive => s.n == 1                            -- one_reader 505-508, 999

def TryOp.grant (s : State) : TryOp → State
  | .lock => { s with w := true, u := false, n := 0 }                  -- state_ = write_entered_ (668)
  | .shared => { s with n := s.n + 1 }                                 -- 745-747
  | .upgrade => { s with n := s.n + 1, u := true }                     -- 823-825
  | .sharedToExclusive => { s with w := true, u := false, n := 0 }     -- 889
  | .sharedToUpgrade => { s with u := true }                           -- 944
  | .upgradeToExclusive => { s with w := true, u := false, n := 0 }    -- 1003

def Down.asserts (s : State) : Down → Bool
  | .unlock => s.w && !s.u && s.n == 0                 -- 718-720
  | .unlockShared => 0 < s.n                           -- 789
  | .unlockUpgrade => !s.w && s.u && 0 < s.n           -- 867-869
  | .exclusiveToShared => s.w && !s.u && s.n == 0      -- 924-926
  | .upgradeToShared => !s.w && s.u && 0 < s.n         -- 969-971
  | .exclusiveToUpgrade => s.w && !s.u && s.n == 0     -- 1034-1036

/-- `gate1_.notify_all()`. -/
def PC.wake1 : PC → PC
  | .gate1 op timed .asleep => .gate1 op timed .awake
  | p => p

def State.notifyAll1 (s : State) : State := { s with pc := fun t => (s.pc t).wake1 }

def PC.asleep1 : PC → Bool
  | .gate1 _ _ .asleep => true
  | _ => false

def PC.asleep2 : PC → Bool
  | .gate2 _ _ _ .asleep => true
  | _ => false

def PC.expired1 : PC → Bool
  | .gate1 _ _ .expired => true
  | _ => false

/-- `gate1_.notify_one()`: any sleeper may be picked, also one whose deadline has just passed. -/
def State.notifyOne1 (s : State) : Option Nat → Option State
  | none => if ∀ t < s.threads, (s.pc t).asleep1 = false then some s else none
  | some t => if (s.pc t).asleep1 then some { s with pc := upd s.pc t (s.pc t).wake1 } else if (s.pc t).expired1 then some s else none

def PC.wake2 : PC → PC
  | .gate2 op saved timed .asleep => .gate2 op saved timed .awake
  | p => p

def PC.expired2 : PC → Bool
  | .gate2 _ _ _ .expired => true
  | _ => false

/-- `gate2_.notify_one()`. -/
def State.notifyOne2 (s : State) : Option Nat → Option State
  | none => if ∀ t < s.threads, (s.pc t).asleep2 = false then some s else none
  | some t => if (s.pc t).asleep2 then some { s with pc := upd s.pc t (s.pc t).wake2 } else if (s.pc t).expired2 then some s else none

/-- The releases and downward conversions. -/
def State.down (s : State) (pick : Option Nat) : Down → Option State
  | .unlock => some { s with w := false, u := false, n := 0 }.notifyAll1              -- 721-724
  | .unlockShared =>                                                                  -- 790-802
    if !s.w then if s.n - 1 == s.limit - 1 then { s with n := s.n - 1 }.notifyOne1 pick else some { s with n := s.n - 1 }
    else if s.n - 1 == 0 then { s with n := s.n - 1 }.notifyOne2 pick else some { s with n := s.n - 1 }
  | .unlockUpgrade => some { s with u := false, n := s.n - 1 }.notifyAll1             -- 870-875
  | .exclusiveToShared => some { s with w := false, u := false, n := 1 }.notifyAll1   -- 927-930
  | .upgradeToShared => some { s with u := false }.notifyAll1                         -- 972-976
  | .exclusiveToUpgrade => some { s with w := false, u := true, n := 1 }.notifyAll1   -- 1037-1040

/-- A thread waiting on `gate1_` has `mut_` again. -/
def State.resume1 (s : State) (t : Nat) (op : Op) (timed : Bool) (sl : Sleep) : Option (State × List Event) :=
  if sl = .asleep then none
  else if op.ready s then
    let r := s.pass1 t timed op
    some (r.1, if r.2 then [.granted t op] else [])
  -- wait_until returns pred() at the deadline
  else if sl = .expired then some ({ s with pc := upd s.pc t .idle }, [.timedOut t op])
  else some ({ s with pc := upd s.pc t (.gate1 op timed .asleep) }, [])

/-- A thread waiting on `gate2_` has `mut_` again. -/
def State.resume2 (s : State) (t : Nat) (op : Op) (saved : Nat) (timed : Bool) (sl : Sleep) : Option (State × List Event) :=
  if sl = .asleep then none
  else if s.noReaders then some ({ s with pc := upd s.pc t .idle }, [.granted t op])
  else if sl = .expired then some (s.fail2 t saved op, [.timedOut t op])
  else some ({ s with pc := upd s.pc t (.gate2 op saved timed .asleep) }, [])

def step (s : State) (l : Label) : Option (State × List Event) :=
  if s.dead then none
  else match l with
  | .call t op timed =>
    if t < s.threads ∧ s.pc t = .idle ∧ op.hasForm timed then
      if op.asserts s then
        if op.ready s then
          let r := s.pass1 t timed op
          some (r.1, op.callEvents t ++ if r.2 then [.granted t op] else [.blocked t op])
        else some ({ s with pc := upd s.pc t (.gate1 op timed .asleep) }, op.callEvents t ++ [.blocked t op])
      else some ({ s with dead := true }, op.callEvents t ++ [.callAborts t op])
    else none
  | .tryCall t op =>
    if t < s.threads ∧ s.pc t = .idle then
      if op.asserts s then if op.ready s then some (op.grant s, [.tried t op true]) else some (s, [.tried t op false])
      else some ({ s with dead := true }, [.tryAborts t op])
    else none
  | .down t d pick =>
    if t < s.threads ∧ s.pc t = .idle then
      if d.asserts s then
        match s.down pick d with
        | some s' => some (s', [.down t d])
        | none => none
      else some ({ s with dead := true }, [.downAborts t d])
    else none
  | .spurious t =>
    match s.pc t with
    | .gate1 op timed .asleep => some ({ s with pc := upd s.pc t (.gate1 op timed .awake) }, [])
    | .gate2 op saved timed .asleep => some ({ s with pc := upd s.pc t (.gate2 op saved timed .awake) }, [])
    | _ => none
  | .timeout t =>
    match s.pc t with
    | .gate1 op true .asleep => some ({ s with pc := upd s.pc t (.gate1 op true .expired) }, [])
    | .gate2 op saved true .asleep => some ({ s with pc := upd s.pc t (.gate2 op saved true .expired) }, [])
    | _ => none
  | .interrupt t =>
    match s.pc t with
    | .gate1 op _ _ => some ({ s with pc := upd s.pc t .idle }, [.threw t op])
    | .gate2 op _ _ _ => some ({ s with pc := upd s.pc t .idle }, [.threw t op])
    | .idle => none
  | .resume t =>
    match s.pc t with
    | .gate1 op timed sl => s.resume1 t op timed sl
    | .gate2 op saved timed sl => s.resume2 t op saved timed sl
    | .idle => none

end Verif.V2Mutex
