import Verif.Future.Api
/-!
# Model of `promise`, `future` and `shared_future`

Models `/repo/include/boost/thread/future.hpp` (`shared_state_base`, `shared_state`, `basic_future`, `future`, `shared_future`, `promise`) and the part of
`/repo/src/pthread/thread.cpp` that publishes results at thread exit.

Any number of promises, futures, shared states and threads. Shared states are numbered; a `shared_ptr` is a number, and shared states are never reused, which
stands for the reference counting.

Granularity: every access to a shared state is a critical section of its mutex, so a call is one step, except that a blocking call waits in
`shared_state_base::waiters` in between. `notify_all` clears the mark `asleep` of the threads waiting there; a thread may also wake up spuriously or because of
its deadline or an interruption.

Simplifications: values are numbers and a `future::get` leaves the stored object moved-from; continuations, deferred functions, wait callbacks and external
waiters are not in this model (see `Verif.Continuation`, `Verif.WaitCallback`, `Verif.WaitAny`); the specialisations for `T&` and `void` are not treated separately;
allocation does not fail; the two objects of a `promise` assignment or swap, and of a future assignment, are not used by another thread at the same time.
-/

namespace Verif.Future

/-- `shared_state_base` and `shared_state<T>` (future.hpp 159-163, 580): the members `exception`, `done`, `is_valid_`, `is_constructed` and `result`.
`moved` says that `*result` was moved from. -/
structure SS where
  done : Bool := false
  exc : Option Exc := none
  res : Option Nat := none
  moved : Bool := false
  constructed : Bool := false
  valid : Bool := true
deriving DecidableEq, Repr

/-- Storing an outcome: `exception=e` (454, 471) or `result.reset(new T(result_))` (597, 607, 679, 696). -/
def SS.put (x : SS) : Out → SS
  | .value v => { x with res := some v, moved := false }
  | .exc e => { x with exc := some e }

/-- `promise::set_value` and `set_exception` (2385-2410, 2465-2474) on the shared state: `mark_finished_with_result_internal` (592-612),
`mark_exceptional_finish_internal` (452-456). The second component: whether `mark_finished_internal` (335-345) was executed. -/
def SS.setNow (x : SS) (o : Out) : SS × Bool × Res :=
  if x.done then (x, false, .satisfied) else ({ x.put o with done := true }, true, .ok)

/-- `set_value_deferred` (669-706) and `set_exception_deferred` (464-473). -/
def SS.setLater (x : SS) (o : Out) : SS × Bool × Res :=
  if x.done && x.exc.isNone then (x, false, .satisfied) else ({ x.put o with constructed := true }, false, .ok)

/-- `notify_deferred` (346-350). -/
def SS.finish (x : SS) : SS × Bool × Res := ({ x with done := true }, true, .ok)

/-- The body of `~promise` (2312-2317). -/
def SS.abandon (x : SS) : SS × Bool × Res :=
  if !x.done && !x.constructed then ({ x with exc := some .broken, done := true }, true, .ok) else (x, false, .ok)

/-- The end of a blocking call whose shared state is done: `wait_internal` (396-399), `get_storage` (645-649), `get` (650-653), `get_sh` (660-663),
`future::get_or` (1821-1831; it invalidates after the wait, 1823), `shared_future::get_or` (2236-2238), `wait_until` (449). -/
def SS.take (cfg : Cfg) (x : SS) : Wait → SS × Res
  | .get uniq =>
      match x.exc with
      | some e => (x, .threw e)
      | none =>
        match x.res with
        | none => (x, .crash)
        | some v => ({ x with moved := x.moved || uniq }, if x.moved then .movedFrom else .value v)
  | .getOr true d =>
      match x.exc with
      | some _ => ({ x with valid := x.valid && !cfg.invAfter }, .value d)
      | none =>
        match x.res with
        | none => ({ x with valid := x.valid && !cfg.invAfter }, .crash)
        | some v => ({ x with valid := x.valid && !cfg.invAfter, moved := true }, if x.moved then .movedFrom else .value v)
  | .getOr false _ =>
      match x.exc with
      | some e => (x, .threw e)
      | none =>
        match x.res with
        | none => (x, .crash)
        | some v => (x, if x.moved then .movedFrom else .value v)
  | .wait => (x, .ok)
  | .timed => (x, .bool true)

/-- Where a thread is: outside the library, or in `waiters.wait` (395) or `waiters.wait_until` (445) of shared state `s`. -/
inductive PC where
  | idle
  | blocked (w : Wait) (s : Nat) (asleep : Bool)
deriving DecidableEq, Repr

/-- A thread. `lib`: it was started by `boost::thread`, so that it has a `thread_data_base`; `released`: no `thread` object refers to it any more;
`atExit`: `async_states_` (thread_data.hpp 139). -/
structure Th where
  pc : PC
  lib : Bool
  exited : Bool
  released : Bool
  atExit : List Nat
deriving DecidableEq, Repr

structure State where
  ss : List SS
  proms : List (Option Prom)
  futs : List (Option Fut)
  ts : List Th
deriving DecidableEq, Repr

/-- Initially there are threads and no objects. `libs` says of each thread whether it was started by `boost::thread`. -/
def init (libs : List Bool) : State :=
  ⟨[], [], [], libs.map fun b => ⟨.idle, b, false, false, []⟩⟩

/-- `waiters.notify_all()` (338) on shared state `i`. -/
def wakeAll (i : Nat) (ts : List Th) : List Th :=
  ts.map fun x => match x.pc with
    | .blocked w j _ => if j = i then { x with pc := .blocked w j false } else x
    | .idle => x

/-- A critical section of shared state `i` that stores `x'`, and notifies if `fin`. -/
def State.store (s : State) (i : Nat) (x' : SS) (fin : Bool) : State :=
  { s with ss := s.ss.set i x', ts := if fin then wakeAll i s.ts else s.ts }

def State.setProm (s : State) (p : Nat) (x : Option Prom) : State := { s with proms := s.proms.set p x }
def State.setFut (s : State) (f : Nat) (x : Option Fut) : State := { s with futs := s.futs.set f x }

/-- `lazy_init` (2272-2283): with `BOOST_THREAD_PROVIDES_PROMISE_LAZY`, a promise without a shared state gets one. -/
def lazyInit (cfg : Cfg) (s : State) (p : Nat) (x : Prom) : State × Prom :=
  match x.st with
  | some _ => (s, x)
  | none =>
    if cfg.lazy then
      ({ s with ss := s.ss ++ [{}], proms := s.proms.set p (some { x with st := some s.ss.length }) }, { x with st := some s.ss.length })
    else (s, x)

/-- `promise::set_*`: `set_value`/`set_exception` dereference `future_` without a check (2388, 2468); the deferred variants check it (2428, 2483); the
at-thread-exit variants check it and do not call `lazy_init` (2509, 2526). `set_value_at_thread_exit` (708-747) and `set_exception_at_thread_exit` (474-485)
then append the shared state to the thread's list (thread.cpp 802-809), if the thread has a `thread_data_base`. -/
def setOp (cfg : Cfg) (s : State) (t : Nat) (th : Th) (p : Nat) (x : Prom) (m : Mode) (o : Out) : Option (State × Res) :=
  match m with
  | .now =>
      let r := lazyInit cfg s p x
      match r.2.st with
      | none => some (r.1, .crash)
      | some i => r.1.ss[i]?.map fun y => (r.1.store i (y.setNow o).1 (y.setNow o).2.1, (y.setNow o).2.2)
  | .deferred =>
      let r := lazyInit cfg s p x
      match r.2.st with
      | none => some (r.1, .noState)
      | some i => r.1.ss[i]?.map fun y => (r.1.store i (y.setLater o).1 (y.setLater o).2.1, (y.setLater o).2.2)
  | .atExit =>
      match x.st with
      | none => some (s, .noState)
      | some i => s.ss[i]?.map fun y =>
          let s' := s.store i (y.setLater o).1 (y.setLater o).2.1
          ((if (y.setLater o).2.2 = .ok ∧ th.lib then { s' with ts := s'.ts.set t { th with atExit := th.atExit ++ [i] } } else s'),
            (y.setLater o).2.2)

/-- The effect of a call that needs a shared state `i` through a future and may block: the check before waiting (1796-1803, 1816-1820) and, if the shared state
is done, the rest of the call; otherwise the thread waits. `inv`: the call invalidates the future first (1802). -/
def waitOp (cfg : Cfg) (s : State) (t : Nat) (th : Th) (op : Op) (i : Nat) (w : Wait) (check inv : Bool) : Option (State × List E) :=
  s.ss[i]?.map fun y =>
    if check && !y.valid then (s, [.ret t op .uninit])
    else
      let y' := if inv then { y with valid := false } else y
      if y.done then (s.store i (y'.take cfg w).1 false, [.ret t op (y'.take cfg w).2])
      else ({ s.store i y' false with ts := s.ts.set t { th with pc := .blocked w i true } }, [.enter t op])

/-- A call `op` by thread `t`. `none`: the call is not possible, because an object does not exist or has the wrong type. -/
def call (cfg : Cfg) (s : State) (t : Nat) (th : Th) (op : Op) : Option (State × List E) :=
  match op with
  -- promise::promise (2299-2306)
  | .pnew =>
      if cfg.lazy then some ({ s with proms := s.proms ++ [some ⟨none, false⟩] }, [.ret t op .ok])
      else some ({ s with ss := s.ss ++ [{}], proms := s.proms ++ [some ⟨some s.ss.length, false⟩] }, [.ret t op .ok])
  -- promise::~promise (2308-2319)
  | .pdestroy p =>
      s.proms[p]?.join.bind fun x =>
        match x.st with
        | none => some (s.setProm p none, [.ret t op .ok])
        | some i => s.ss[i]?.map fun y => ((s.store i y.abandon.1 y.abandon.2.1).setProm p none, [.ret t op .ok])
  -- promise::promise(promise&&) (2322-2327)
  | .pmove p =>
      s.proms[p]?.join.map fun x =>
        ({ s with proms := s.proms.set p (some ⟨none, false⟩) ++ [some x] }, [.ret t op .ok])
  -- promise::operator= (2328-2335)
  | .passign p q =>
      s.proms[p]?.join.bind fun _ => s.proms[q]?.join.map fun y =>
        ((s.setProm p (some y)).setProm q (some ⟨none, false⟩), [.ret t op .ok])
  -- promise::swap (2337-2341)
  | .pswap p q =>
      s.proms[p]?.join.bind fun x => s.proms[q]?.join.map fun y => ((s.setProm p (some y)).setProm q (some x), [.ret t op .ok])
  -- promise::get_future (2356-2369)
  | .getFuture p =>
      s.proms[p]?.join.map fun x =>
        let r := lazyInit cfg s p x
        match r.2.st with
        | none => (r.1, [.ret t op .noState])
        | some i =>
          if r.2.got then (r.1, [.ret t op .retrieved])
          else ({ r.1.setProm p (some ⟨some i, true⟩) with futs := r.1.futs ++ [some ⟨some i, false⟩] }, [.ret t op .ok])
  | .set p m o =>
      s.proms[p]?.join.bind fun x => (setOp cfg s t th p x m o).map fun r => (r.1, [.ret t op r.2])
  -- promise::notify_deferred (2544-2551)
  | .notify p =>
      s.proms[p]?.join.bind fun x =>
        match x.st with
        | none => some (s, [.ret t op .noState])
        | some i => s.ss[i]?.map fun y => (s.store i y.finish.1 y.finish.2.1, [.ret t op .ok])
  -- basic_future(basic_future&&) (1365-1369), share (1763-1766), 1745-1755, 2188-2195
  | .fconv f sh =>
      s.futs[f]?.join.map fun x =>
        ({ s with futs := s.futs.set f (some ⟨none, x.shared⟩) ++ [some ⟨x.st, sh⟩] }, [.ret t op .ok])
  -- basic_future::operator= (1370-1375), 1757-1761, 2197-2206: a shared_future can be assigned from a future, not conversely
  | .fassign f g =>
      s.futs[f]?.join.bind fun x => s.futs[g]?.join.bind fun y =>
        if x.shared || !y.shared then
          some ((s.setFut f (some ⟨y.st, x.shared⟩)).setFut g (some ⟨none, y.shared⟩), [.ret t op .ok])
        else none
  -- shared_future(shared_future const&) (2168-2170)
  | .fcopy f =>
      s.futs[f]?.join.bind fun x =>
        if x.shared then some ({ s with futs := s.futs ++ [some x] }, [.ret t op .ok]) else none
  -- ~basic_future (1362-1363)
  | .fdestroy f => s.futs[f]?.join.map fun _ => (s.setFut f none, [.ret t op .ok])
  -- basic_future::is_ready (1389-1401), shared_state_base::get_state (520-531)
  | .isReady f =>
      s.futs[f]?.join.bind fun x =>
        match x.st with
        | none => some (s, [.ret t op (.bool false)])
        | some i => s.ss[i]?.map fun y => (s, [.ret t op (.bool y.done)])
  -- basic_future::has_value (1412-1415), shared_state_base::has_value (487-491)
  | .hasValue f =>
      s.futs[f]?.join.bind fun x =>
        match x.st with
        | none => some (s, [.ret t op (.bool false)])
        | some i => s.ss[i]?.map fun y => (s, [.ret t op (.bool (y.done && y.exc.isNone))])
  -- basic_future::has_exception (1407-1410), shared_state_base::has_exception (498-502)
  | .hasException f =>
      s.futs[f]?.join.bind fun x =>
        match x.st with
        | none => some (s, [.ret t op (.bool false)])
        | some i => s.ss[i]?.map fun y => (s, [.ret t op (.bool (y.done && y.exc.isSome))])
  -- basic_future::valid (1439-1442), shared_state_base::valid (230-234)
  | .valid f =>
      s.futs[f]?.join.bind fun x =>
        match x.st with
        | none => some (s, [.ret t op (.bool false)])
        | some i => s.ss[i]?.map fun y => (s, [.ret t op (.bool y.valid)])
  -- future::get (1790-1805), shared_future::get (2219-2226)
  | .getF f =>
      s.futs[f]?.join.bind fun x =>
        match x.st with
        | none => some (s, [.ret t op .uninit])
        | some i => waitOp cfg s t th op i (.get (!x.shared)) (!x.shared) (!x.shared && cfg.invAfter)
  -- future::get_or (1807-1857), shared_future::get_or (2228-2239)
  | .getOrF f sh d =>
      s.futs[f]?.join.bind fun x =>
        if x.shared ≠ sh then none
        else match x.st with
        | none => some (s, [.ret t op .uninit])
        | some i => waitOp cfg s t th op i (.getOr (!sh) d) (!sh) false
  -- basic_future::wait (1444-1451)
  | .waitF f =>
      s.futs[f]?.join.bind fun x =>
        match x.st with
        | none => some (s, [.ret t op .uninit])
        | some i => waitOp cfg s t th op i .wait false false
  -- basic_future::wait_until, wait_for, timed_wait (1483-1518)
  | .timedF f =>
      s.futs[f]?.join.bind fun x =>
        match x.st with
        | none => some (s, [.ret t op .uninit])
        | some i => waitOp cfg s t th op i .timed false false
  -- the end of thread_proxy (thread.cpp 168-202)
  | .exit => some ({ s with ts := s.ts.set t { th with exited := true } }, [.ret t op .ok])

inductive L where
  /-- thread `t` makes a call -/
  | call (t : Nat) (op : Op)
  /-- thread `t` goes on after `notify_all` -/
  | resume (t : Nat)
  /-- thread `t` wakes up spuriously -/
  | spurious (t : Nat)
  /-- the deadline of thread `t`'s wait passes -/
  | timeout (t : Nat)
  /-- thread `t` is interrupted in its wait -/
  | interrupt (t : Nat)
  /-- thread `t` is joined or detached, or its `thread` object is destroyed: the object's reference to the `thread_data_base` is dropped
  (thread.cpp 351-354, 426) -/
  | release (t : Nat)
  /-- `~thread_data_base` of thread `t`: one more element of `async_states_` (thread.cpp 58-62) -/
  | publish (t : Nat)
deriving DecidableEq, Repr

/-- After a wake-up: the predicate `is_done` is evaluated again (395, 445), and if it holds the call completes. -/
def recheck (cfg : Cfg) (s : State) (t : Nat) (th : Th) (w : Wait) (i : Nat) : Option (State × List E) :=
  s.ss[i]?.map fun y =>
    if y.done then ({ s.store i (y.take cfg w).1 false with ts := s.ts.set t { th with pc := .idle } }, [.leave t (y.take cfg w).2])
    else ({ s with ts := s.ts.set t { th with pc := .blocked w i true } }, [])

def step (cfg : Cfg) (s : State) : L → Option (State × List E)
  | .call t op =>
      s.ts[t]?.bind fun th => if th.pc = .idle ∧ ¬ th.exited then call cfg s t th op else none
  | .resume t =>
      s.ts[t]?.bind fun th => match th.pc with
        | .blocked w i false => recheck cfg s t th w i
        | _ => none
  | .spurious t =>
      s.ts[t]?.bind fun th => match th.pc with
        | .blocked w i true => recheck cfg s t th w i
        | _ => none
  -- condition_variable::wait_until with a predicate: at the deadline the predicate is evaluated once more
  | .timeout t =>
      s.ts[t]?.bind fun th => match th.pc with
        | .blocked .timed i _ => s.ss[i]?.map fun y =>
            ({ s with ts := s.ts.set t { th with pc := .idle } }, [.leave t (.bool y.done)])
        | _ => none
  | .interrupt t =>
      s.ts[t]?.bind fun th => match th.pc with
        | .blocked _ _ _ => some ({ s with ts := s.ts.set t { th with pc := .idle } }, [.leave t .interrupted])
        | .idle => none
  | .release t =>
      s.ts[t]?.bind fun th =>
        if th.released then none else some ({ s with ts := s.ts.set t { th with released := true } }, [.released t])
  | .publish t =>
      s.ts[t]?.bind fun th =>
        if th.exited && th.released then
          match th.atExit with
          | [] => none
          | i :: rest =>
            s.ss[i]?.map fun y =>
              (({ s with ts := s.ts.set t { th with atExit := rest } } : State).store i y.finish.1 y.finish.2.1, [.published t])
        else none

end Verif.Future
