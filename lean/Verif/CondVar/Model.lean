import Verif.Core.Run
import Verif.Core.Threads
/-!
# Model of `condition_variable`, `condition_variable_any` and thread interruption

Models, with `BOOST_THREAD_PROVIDES_INTERRUPTIONS`:

* `/repo/include/boost/thread/pthread/condition_variable.hpp` lines 64-158 (`condition_variable::wait`, `do_wait_until`, `notify_one`, `notify_all`),
  187-210, 438-448 and 460-490 (the same functions of `condition_variable_any`), 30-62 (`lock_on_exit`);
* `/repo/include/boost/thread/pthread/thread_data.hpp` lines 186-245 (`interruption_checker`);
* `/repo/src/pthread/thread.cpp` lines 589-616 (`thread::interrupt`, `interruption_requested`), 638-652 (`interruption_point`) and 674-705
  (`disable_interruption`, `restore_interruption`).

Any number of threads, condition variables and user mutexes. Every condition variable has an internal mutex and a wait set (the threads at `asleep`);
every thread has its `data_mutex`, `interrupt_enabled`, `interrupt_requested` and `current_cond`.

Granularity: every acquisition of a mutex is a step of its own, except that a critical section in which nothing can block is one step, taken when the mutex is
free. `pthread_cond_wait` releases the internal mutex and joins the wait set in one step (POSIX). `pthread_cond_signal` removes one thread of the wait set,
chosen by the label, if there is one; waking more is a spurious wake-up, always possible. A timed wait may be woken by its time-out; the clock is in
`Verif.TimedWait`.

Simplifications: errors of `pthread_cond_wait` other than `ETIMEDOUT` do not occur; every thread was created by the library (it has a `thread_info`).
-/

namespace Verif.CondVar

/-- Where a thread is. `c` is the condition variable, `m` the user's mutex, `set` the member `interruption_checker::set`, `timed` whether the wait has a
deadline, `to` whether the result is `ETIMEDOUT`. -/
inductive PC where
  | idle
  /-- in `wait`, in the constructor of `interruption_checker`, before `lock_guard` (thread_data.hpp 210-212) -/
  | w0 (c m : Nat) (set timed : Bool)
  /-- before `pthread_mutex_lock(m)` (216, 220); holds its own `data_mutex` if `set` -/
  | w1 (c m : Nat) (set timed : Bool)
  /-- before `guard.activate(m)` (condition_variable.hpp 78, 121); holds the internal mutex -/
  | w2 (c m : Nat) (set timed : Bool)
  /-- before `pthread_cond_wait` (79, 122); holds the internal mutex -/
  | w3 (c m : Nat) (set timed : Bool)
  /-- in the wait set -/
  | asleep (c m : Nat) (set timed : Bool)
  /-- removed from the wait set; has to reacquire the internal mutex and release it again (79-80, thread_data.hpp 228, 235) -/
  | woke (c m : Nat) (set to : Bool)
  /-- before `lock_guard` in `unlock_if_locked` (229) -/
  | clr (c m : Nat) (to : Bool)
  /-- before `guard.deactivate()` (81, 124) -/
  | relock (m : Nat) (to : Bool)
  /-- before `interruption_point()` (88, 131) -/
  | ip (m : Nat) (to : Bool)
  /-- in `interrupt()` of thread `u`, holds its `data_mutex`, before `internal_lock` (thread.cpp 598) -/
  | i1 (u c : Nat)
deriving DecidableEq, Repr

/-- A `disable_interruption` object with its member, or a `restore_interruption` object. -/
inductive Scope where
  | dis (was : Bool)
  | res
deriving DecidableEq, Repr

structure Thr where
  pc : PC
  /-- `interrupt_enabled` -/
  en : Bool
  /-- `interrupt_requested` -/
  rq : Bool
  /-- `current_cond` / `cond_mutex` -/
  cur : Option Nat
  /-- owner of `data_mutex` between steps -/
  dm : Option Nat
  /-- live interruption scopes, innermost first -/
  scopes : List Scope
deriving DecidableEq, Repr

structure State where
  ts : List Thr
  /-- owner of the internal mutex of a condition variable between steps -/
  im : Nat → Option Nat
  /-- owner of a user mutex -/
  mx : Nat → Option Nat

def upd (f : Nat → Option Nat) (i : Nat) (v : Option Nat) : Nat → Option Nat := fun j => if j = i then v else f j

def Thr.new : Thr := { pc := .idle, en := true, rq := false, cur := none, dm := none, scopes := [] }
def init (n : Nat) : State := { ts := List.replicate n Thr.new, im := fun _ => none, mx := fun _ => none }

inductive Event where
  | locked (t m : Nat)
  | unlocked (t m : Nat)
  /-- thread `t` has released `m` inside `wait` on `c` -/
  | waitBegan (t c m : Nat) (timed : Bool)
  /-- `notify_one` has happened; the thread it woke -/
  | notifiedOne (t c : Nat) (w : Option Nat)
  | notifiedAll (t c : Nat)
  | spurious (t : Nat)
  /-- the wait of `t` reaches its deadline -/
  | timedOut (t : Nat)
  /-- everybody waiting on `c` is woken by an interruption -/
  | broadcast (c : Nat)
  /-- `wait` has reacquired `m` -/
  | relocked (t m : Nat)
  /-- `wait` returns; `to` means that it reports a time-out -/
  | returned (t : Nat) (to : Bool)
  /-- `thread_interrupted` is thrown in thread `t` -/
  | interrupted (t : Nat)
  /-- `interrupt()` of thread `u` has taken effect -/
  | requested (t u : Nat)
  /-- `interruption_point()` returns -/
  | passed (t : Nat)
  | requestedIs (t u : Nat) (b : Bool)
  | enabledIs (t : Nat) (b : Bool)
  | disable (t : Nat)
  | restore (t d : Nat)
  | scopeEnd (t : Nat)
deriving DecidableEq, Repr

inductive Label where
  | lock (t m : Nat)
  | unlock (t m : Nat)
  | wait (t c m : Nat) (timed : Bool)
  /-- the next step of a thread inside `wait` or `interrupt` -/
  | go (t : Nat)
  | spurious (t : Nat)
  | timeout (t : Nat)
  | notifyOne (t c : Nat) (w : Option Nat)
  | notifyAll (t c : Nat)
  | interrupt (t u : Nat)
  | point (t : Nat)
  | isRequested (t u : Nat)
  | isEnabled (t : Nat)
  | disable (t : Nat)
  /-- construct a `restore_interruption` from the live scope number `d`, counted from the outermost -/
  | restore (t d : Nat)
  | endScope (t : Nat)
deriving DecidableEq, Repr

def setT (s : State) (t : Nat) (x : Thr) : State := { s with ts := s.ts.set t x }

def Thr.at (x : Thr) (p : PC) : Thr := { x with pc := p }

/-- In the wait set of `c`. -/
def asleepOn (c : Nat) (x : Thr) : Bool :=
  match x.pc with
  | .asleep c' _ _ _ => c' == c
  | _ => false

/-- `pthread_cond_broadcast`. -/
def wake (c : Nat) (x : Thr) : Thr :=
  match x.pc with
  | .asleep c' m set _ => if c' = c then { x with pc := .woke c m set false } else x
  | _ => x

/-- The next step of a thread inside `wait` or `interrupt`. -/
def go (s : State) (t : Nat) (x : Thr) : Option (State × List Event) :=
  match x.pc with
  | .w0 c m set timed =>
    if set then                                                            -- thread_data.hpp 210
      if x.dm = none then                                                  -- 212
        if x.rq then some (setT s t { x with rq := false, pc := .idle }, [.interrupted t])      -- 196-200, 213
        else some (setT s t { x with cur := some c, dm := some t, pc := .w1 c m set timed }, [])   -- 214-215
      else none
    else some (setT s t (x.at (.w1 c m set timed)), [])                    -- 218
  | .w1 c m set timed =>
    if s.im c = none then                                                  -- 216, 220; end of the scope of `guard`
      some ({ setT s t { x with dm := if set then none else x.dm, pc := .w2 c m set timed } with im := upd s.im c (some t) }, [])
    else none
  | .w2 c m set timed => some ({ setT s t (x.at (.w3 c m set timed)) with mx := upd s.mx m none }, [.waitBegan t c m timed])    -- condition_variable.hpp 43
  | .w3 c m set timed => some ({ setT s t (x.at (.asleep c m set timed)) with im := upd s.im c none }, [])     -- 79, 122
  | .woke c m set to =>
    if s.im c = none then                                                  -- 79-80; thread_data.hpp 228, 235
      some (setT s t (x.at (if set then .clr c m to else .relock m to)), [])
    else none
  | .clr _ m to =>
    if x.dm = none then some (setT s t { x with cur := none, pc := .relock m to }, []) else none     -- 229-231
  | .relock m to =>
    if s.mx m = none then some ({ setT s t (x.at (.ip m to)) with mx := upd s.mx m (some t) }, [.relocked t m]) else none     -- 50
  | .ip _ to =>
    if x.en then                                                           -- thread.cpp 642
      if x.dm = none then                                                  -- 644
        if x.rq then some (setT s t { x with rq := false, pc := .idle }, [.interrupted t])      -- 645-648
        else some (setT s t (x.at .idle), [.returned t to])
      else none
    else some (setT s t (x.at .idle), [.returned t to])
  | .i1 u c =>
    if s.im c = none then                                                  -- 598-599; end of the scope of `lk`
      match (s.ts.map (wake c))[u]? with
      | some y =>
        let ts := (s.ts.map (wake c)).set u { y with dm := none }
        match ts[t]? with
        | some z => some ({ s with ts := ts.set t (z.at .idle) }, [.broadcast c])
        | none => none
      | none => none
    else none
  | _ => none

def step (s : State) : Label → Option (State × List Event)
  | .lock t m =>
    match s.ts[t]? with
    | some x => if x.pc = .idle ∧ s.mx m = none then some ({ s with mx := upd s.mx m (some t) }, [.locked t m]) else none
    | none => none
  | .unlock t m =>
    match s.ts[t]? with
    | some x => if x.pc = .idle ∧ s.mx m = some t then some ({ s with mx := upd s.mx m none }, [.unlocked t m]) else none
    | none => none
  | .wait t c m timed =>
    match s.ts[t]? with
    | some x =>
      if x.pc = .idle ∧ s.mx m = some t then some (setT s t (x.at (.w0 c m x.en timed)), []) else none     -- thread_data.hpp 206-208
    | none => none
  | .go t =>
    match s.ts[t]? with
    | some x => go s t x
    | none => none
  | .spurious t =>
    match s.ts[t]? with
    | some x =>
      match x.pc with
      | .asleep c m set _ => some (setT s t (x.at (.woke c m set false)), [.spurious t])
      | _ => none
    | none => none
  | .timeout t =>
    match s.ts[t]? with
    | some x =>
      match x.pc with
      | .asleep c m set timed => if timed then some (setT s t (x.at (.woke c m set true)), [.timedOut t]) else none
      | _ => none
    | none => none
  | .notifyOne t c w =>                                                    -- condition_variable.hpp 144-150, 438-442
    match s.ts[t]? with
    | some x =>
      if x.pc = .idle ∧ s.im c = none then
        match w with
        | none => if s.ts.all (fun y => !asleepOn c y) then some (s, [.notifiedOne t c none]) else none
        | some v =>
          match s.ts[v]? with
          | some y => if asleepOn c y then some (setT s v (wake c y), [.notifiedOne t c (some v)]) else none
          | none => none
      else none
    | none => none
  | .notifyAll t c =>                                                      -- 152-158, 444-448
    match s.ts[t]? with
    | some x => if x.pc = .idle ∧ s.im c = none then some ({ s with ts := s.ts.map (wake c) }, [.notifiedAll t c]) else none
    | none => none
  | .interrupt t u =>                                                      -- thread.cpp 589-602
    match s.ts[t]?, s.ts[u]? with
    | some x, some y =>
      if x.pc = .idle ∧ y.dm = none then                                   -- 594
        match y.cur with
        | none => some (setT s u { y with rq := true }, [.requested t u])
        | some c =>
          if t = u then none else
          some (setT (setT s u { y with rq := true, dm := some t }) t (x.at (.i1 u c)), [.requested t u])
      else none
    | _, _ => none
  | .point t =>                                                            -- 638-652
    match s.ts[t]? with
    | some x =>
      if x.pc = .idle then
        if x.en then
          if x.dm = none then
            if x.rq then some (setT s t { x with rq := false }, [.interrupted t]) else some (s, [.passed t])
          else none
        else some (s, [.passed t])
      else none
    | none => none
  | .isRequested t u =>                                                    -- 604-616, 660-672
    match s.ts[t]?, s.ts[u]? with
    | some x, some y => if x.pc = .idle ∧ y.dm = none then some (s, [.requestedIs t u y.rq]) else none
    | _, _ => none
  | .isEnabled t =>                                                        -- 654-658
    match s.ts[t]? with
    | some x => if x.pc = .idle then some (s, [.enabledIs t x.en]) else none
    | none => none
  | .disable t =>                                                          -- 674-681
    match s.ts[t]? with
    | some x =>
      if x.pc = .idle then some (setT s t { x with en := if x.en then false else x.en, scopes := .dis x.en :: x.scopes }, [.disable t]) else none
    | none => none
  | .restore t d =>                                                        -- 691-697
    match s.ts[t]? with
    | some x =>
      if x.pc = .idle then
        match x.scopes.reverse[d]? with
        | some (.dis was) => some (setT s t { x with en := if was then true else x.en, scopes := .res :: x.scopes }, [.restore t d])
        | _ => none
      else none
    | none => none
  | .endScope t =>                                                         -- 683-689, 699-705
    match s.ts[t]? with
    | some x =>
      if x.pc = .idle then
        match x.scopes with
        | .dis was :: rest => some (setT s t { x with en := was, scopes := rest }, [.scopeEnd t])
        | .res :: rest => some (setT s t { x with en := false, scopes := rest }, [.scopeEnd t])
        | [] => none
      else none
    | none => none

end Verif.CondVar
