import Verif.Lifetime.Spec
/-!
# Model of the life of thread data

`thread_data_base` with its references:

* POSIX: `boost::shared_ptr`, with a pointer of the data to themselves (`self`, include/boost/thread/pthread/thread_data.hpp 119) that keeps them alive until the new thread has its own
  pointer; src/pthread/thread.cpp 89-124 (`tls_destructor`), 152-163, 165-202 (`thread_proxy`), 235-252, 260-310 (`start_thread_noexcept`);
* Windows: `boost::intrusive_ptr`, with a count in the data (include/boost/thread/win32/thread_data.hpp 99-160); src/win32/thread.cpp 258-287 (`run_thread_exit_callbacks`), 289-310
  (`thread_start_function`), 316-358 (`start_thread_noexcept`), 361-420;
* Windows Runtime: the same, but `start_thread_noexcept` counts the reference of the new thread before it creates the thread (src/win32/thread.cpp 318-325).

Simplifications. The count of a `shared_ptr` is a number in the data, too; taking and giving up a reference is atomic, and the thread that has made it zero then destroys the data in a step of its own.
The steps of different data may be interleaved in any way, even if the same thread would have to take them in a certain order: there are more runs than in the program. Client
code is arbitrary: the function, exit functions and cleanup functions, the destructors of functions. What `join` waits for is the subject of Thread and WinThread: here a
reference may be given up at any time. On Windows `on_thread_exit` is taken to be called after the
last use of the data of the thread. Not modelled: exceptions of `set_current_thread_data` on Windows; a failure of `pthread_attr_getdetachstate` (src/pthread/thread.cpp 285-290).
-/

namespace Verif.Lifetime

inductive Plat where
  | posix | windows | winrt
deriving DecidableEq, Repr

/-- How far the thread (or the constructor) has come with some data. -/
inductive Stage where
  /-- the constructor has made the data: `thread_info(make_thread_info(…))` (include/boost/thread/detail/thread.hpp 266-340) -/
  | made
  /-- POSIX: `self` set (pthread/thread.cpp 262, 275). Windows Runtime: counted (win32/thread.cpp 319) -/
  | armed
  /-- Windows: the thread exists, suspended (win32/thread.cpp 327, 348) -/
  | susp
  /-- Windows: counted (win32/thread.cpp 332, 354) -/
  | counted
  /-- the thread may run -/
  | born
  /-- POSIX: `thread_proxy` has its pointer (pthread/thread.cpp 172) -/
  | took
  /-- in `run()` -/
  | body
  /-- in the exit functions -/
  | clean
  /-- POSIX: `tls_destructor` has returned to `thread_proxy` (pthread/thread.cpp 195) -/
  | cleared
  /-- `set_current_thread_data(0)` done (pthread/thread.cpp 196, win32/thread.cpp 285) -/
  | unset
  /-- the pointer of the thread is gone -/
  | over
  /-- the system has refused to create the thread -/
  | refused
  /-- made by `make_external_thread_data` (pthread/thread.cpp 235-241, win32/thread.cpp 391-404) -/
  | ext
  /-- POSIX: in `tls_destructor`, called by the system for such data -/
  | xclean
  /-- POSIX: the system has given up calling `tls_destructor` -/
  | abandoned
deriving DecidableEq, Repr

structure Rec where
  /-- the count of the references -/
  count : Nat
  /-- POSIX: `self` is not null -/
  self : Bool
  /-- not destroyed -/
  alive : Bool
  /-- the thread that has made the count zero and is about to destroy the data -/
  dying : Option Nat
  stage : Stage
  /-- the thread they belong to -/
  thr : Nat
  /-- made by a constructor of `boost::thread` -/
  lib : Bool
deriving DecidableEq, Repr

structure State where
  /-- number of data made -/
  nr : Nat
  dat : Nat → Rec
  /-- the references held by the client: name and data -/
  refs : List (Nat × Nat)
  /-- number of threads -/
  nt : Nat
  /-- the data of the constructor that has created the thread -/
  lib : Nat → Option Nat
  /-- `get_current_thread_data()` -/
  cur : Nat → Option Nat
  /-- the data the system has called `tls_destructor` (POSIX), `run_thread_exit_callbacks` (Windows) for -/
  xc : Nat → Option Nat
  /-- POSIX: how often the system has called it -/
  rounds : Nat → Nat
  done : Nat → Bool

def Rec.blank : Rec := { count := 0, self := false, alive := true, dying := none, stage := .made, thr := 0, lib := false }

/-- `k` threads not created by the library. -/
def init (k : Nat) : State :=
  { nr := 0, dat := fun _ => Rec.blank, refs := [], nt := k, lib := fun _ => none, cur := fun _ => none, xc := fun _ => none, rounds := fun _ => 0, done := fun _ => false }

inductive Label where
  /-- a constructor of `boost::thread` begins; the object is called `o` -/
  | make (o : Nat)
  /-- it takes the reference for the thread -/
  | arm (d : Nat)
  /-- it asks the system for a thread -/
  | spawn (d : Nat) (ok : Bool) (t : Nat)
  /-- Windows: it resumes the thread -/
  | resume (d : Nat)
  /-- the next step of the thread of `d` in the library -/
  | go (d : Nat)
  /-- the function in `d` returns -/
  | ret (d : Nat)
  /-- client code in `t` needs the data of the thread: `get_or_make_current_thread_data` -/
  | use (t : Nat)
  /-- `this_thread::get_id()` -/
  | self (t o : Nat)
  | copy (o o' : Nat)
  | drop (t o : Nat)
  /-- a member function of the object or `thread::id` called `o` looks at the data -/
  | look (o : Nat)
  /-- the destructor of the data -/
  | delete (d : Nat)
  /-- thread `t` is ending: the system calls the destructor of the key (POSIX), or `on_thread_exit` (Windows, win32/tss_pe.cpp, win32/thread.cpp 1002-1007) -/
  | exit (t : Nat)
  | finish (t : Nat)
deriving DecidableEq, Repr

/-- The data may be used. -/
def Rec.ok (x : Rec) : Bool := x.alive && x.dying.isNone

def setRec (s : State) (d : Nat) (x : Rec) : State := { s with dat := upd s.dat d x }

/-- A new reference: `add_ref` (win32/thread_data.hpp 149-152), a copy of a `shared_ptr`, `shared_from_this`. -/
def Rec.addRef (x : Rec) : Rec := { x with count := x.count + 1 }

/-- `t` gives up a reference: `release` (win32/thread_data.hpp 154-160), `~shared_ptr`, `reset`. -/
def Rec.release (x : Rec) (t : Nat) : Rec :=
  { x with count := x.count - 1, dying := if x.count - 1 = 0 then some t else x.dying }

/-- `self.reset()` in thread `t`. -/
def Rec.selfReset (x : Rec) (t : Nat) : Rec := if x.self then { x.release t with self := false } else x

/-- The constructor that made the data is still running: the client cannot use the object. -/
def Stage.hidden : Stage → Bool
  | .made | .armed | .susp | .counted => true
  | _ => false

/-- Client code may be running in thread `t`. -/
def client (s : State) (t : Nat) : Bool :=
  t < s.nt && !s.done t && match s.lib t with
    | none => true
    | some d => match (s.dat d).stage with
      | .body | .clean | .cleared | .unset | .over => true
      | _ => false

/-- `thread_proxy`, `thread_start_function` have returned in thread `t`, if it has been created by the library. -/
def returned (s : State) (t : Nat) : Bool :=
  match s.lib t with
  | none => true
  | some d => (s.dat d).stage == .over

/-- The reference called `o`. -/
def ref (s : State) (o : Nat) : Option Nat := (s.refs.find? (fun r => r.1 == o)).map (·.2)

def fresh (s : State) (o : Nat) : Bool := !s.refs.any (fun r => r.1 == o)

/-- The next step of the thread of `d` in the library; `x` are the data. -/
def go (P : Plat) (s : State) (d : Nat) (x : Rec) : Option (State × List Event) :=
  match P, x.stage with
  /- `shared_from_this()` (pthread/thread.cpp 172) -/
  | .posix, .born => some (setRec s d { x.addRef with stage := .took }, [])
  /- `self.reset()`, `set_current_thread_data`, `run()` (pthread/thread.cpp 173-179) -/
  | .posix, .took => some ({ setRec s d { x.selfReset x.thr with stage := .body } with cur := upd s.cur x.thr (some d) }, [.began x.thr d])
  /- the end of `tls_destructor`: `self.reset()`, its local pointer (pthread/thread.cpp 92, 122) -/
  | .posix, .clean => some (setRec s d { (x.selfReset x.thr).release x.thr with stage := .cleared }, [])
  /- `set_current_thread_data(0)` (pthread/thread.cpp 196) -/
  | .posix, .cleared => some ({ setRec s d { x with stage := .unset } with cur := upd s.cur x.thr none }, [])
  /- `done`, `notify_all`, the end of `thread_proxy` (pthread/thread.cpp 197-201) -/
  | .posix, .unset => some (setRec s d { x.release x.thr with stage := .over }, [.over x.thr d])
  /- the same end of `tls_destructor` -/
  | .posix, .xclean => some ({ setRec s d { (x.selfReset x.thr).release x.thr with stage := .over } with xc := upd s.xc x.thr none }, [.over x.thr d])
  | .posix, _ => none
  /- `set_current_thread_data`, `run()` (win32/thread.cpp 291-297) -/
  | _, .born => some ({ setRec s d { x with stage := .body } with cur := upd s.cur x.thr (some d) }, [.began x.thr d])
  /- `set_current_thread_data(0)` (win32/thread.cpp 285) -/
  | _, .clean => some ({ setRec s d { x with stage := .unset } with cur := upd s.cur x.thr none }, [])
  /- the end of `run_thread_exit_callbacks`: the pointer made without counting (win32/thread.cpp 260) -/
  | _, .unset => some ({ setRec s d { x.release x.thr with stage := .over } with xc := if x.lib then s.xc else upd s.xc x.thr none }, [.over x.thr d])
  | _, _ => none

/-- The system creates thread `t = nt` for `d`. -/
def spawned (s : State) (d : Nat) (x : Rec) (st : Stage) : State :=
  { setRec s d { x with stage := st, thr := s.nt } with nt := s.nt + 1, lib := upd s.lib s.nt (some d) }

/-- `K` is how often the system calls the destructor of a key (`PTHREAD_DESTRUCTOR_ITERATIONS`, at least 4). -/
def step (P : Plat) (K : Nat) (s : State) : Label → Option (State × List Event)
  | .make o =>
    if fresh s o then
      some ({ setRec s s.nr { Rec.blank with count := 1, lib := true } with nr := s.nr + 1, refs := (o, s.nr) :: s.refs }, [.made o s.nr])
    else none
  | .arm d =>
    if d < s.nr then
      let x := s.dat d
      match P, x.stage with
      /- `thread_info->self=thread_info` (pthread/thread.cpp 262, 275) -/
      | .posix, .made => if x.ok then some (setRec s d { x.addRef with self := true, stage := .armed }, []) else some (s, [.stale d])
      /- `intrusive_ptr_add_ref` (win32/thread.cpp 319) -/
      | .winrt, .made => if x.ok then some (setRec s d { x.addRef with stage := .armed }, []) else some (s, [.stale d])
      /- `intrusive_ptr_add_ref` (win32/thread.cpp 332, 354) -/
      | .windows, .susp => if x.ok then some (setRec s d { x.addRef with stage := .counted }, []) else some (s, [.stale d])
      | _, _ => none
    else none
  | .spawn d ok t =>
    if d < s.nr then
      let x := s.dat d
      match P, x.stage with
      /- `pthread_create`, `self.reset()` (pthread/thread.cpp 263-269, 277-282) -/
      | .posix, .armed =>
        if x.ok then
          if ok then some (spawned s d x .born, []) else some (setRec s d { x.selfReset t with stage := .refused }, [.refused d])
        else some (s, [.stale d])
      /- `thread_handle.start`, `intrusive_ptr_release` (win32/thread.cpp 320-324) -/
      | .winrt, .armed =>
        if x.ok then
          if ok then some (spawned s d x .born, []) else some (setRec s d { x.release t with stage := .refused }, [.refused d])
        else some (s, [.stale d])
      /- `_beginthreadex` (win32/thread.cpp 327-331, 348-353) -/
      | .windows, .made =>
        if x.ok then
          if ok then some (spawned s d x .susp, []) else some (setRec s d { x with stage := .refused }, [.refused d])
        else some (s, [.stale d])
      | _, _ => none
    else none
  | .resume d =>
    if d < s.nr then
      let x := s.dat d
      match P, x.stage with
      /- `ResumeThread` (win32/thread.cpp 333-334, 355-356) -/
      | .windows, .counted => if x.ok then some (setRec s d { x with stage := .born }, []) else some (s, [.stale d])
      | _, _ => none
    else none
  | .go d =>
    if d < s.nr then
      let x := s.dat d
      if x.ok then go P s d x
      else match go P s d x with
        | some _ => some (s, [.stale d])
        | none => none
    else none
  | .ret d =>
    if d < s.nr then
      let x := s.dat d
      match x.stage with
      | .body =>
        if x.ok then
          /- POSIX: the local pointer of `tls_destructor` (pthread/thread.cpp 92) -/
          some (setRec s d { (if P = .posix then x.addRef else x) with stage := .clean }, [.ended d])
        else some (s, [.stale d])
      | _ => none
    else none
  | .use t =>
    if client s t then
      match s.cur t with
      | some d => if (s.dat d).ok then some (s, []) else some (s, [.stale d])
      /- `make_external_thread_data` (pthread/thread.cpp 235-241, win32/thread.cpp 363-366, 391-404) -/
      | none =>
        some ({ setRec s s.nr { Rec.blank with count := 1, self := decide (P = .posix), stage := .ext, thr := t } with nr := s.nr + 1, cur := upd s.cur t (some s.nr) },
          [.got t s.nr])
    else none
  | .self t o =>
    if client s t ∧ fresh s o ∧ P = .posix then
      /- `thread::id(thread_info->shared_from_this())` (detail/thread.hpp 753-754); the data are made first if there are none: `use` -/
      match s.cur t with
      | some d => if (s.dat d).ok then some ({ setRec s d (s.dat d).addRef with refs := (o, d) :: s.refs }, [.self t d o]) else some (s, [.stale d])
      | none => none
    else none
  | .copy o o' =>
    match ref s o with
    | some d =>
      if fresh s o' ∧ (s.dat d).stage.hidden = false then
        if (s.dat d).ok then some ({ setRec s d (s.dat d).addRef with refs := (o', d) :: s.refs }, [.copied o o']) else some (s, [.stale d])
      else none
    | none => none
  | .drop t o =>
    match ref s o with
    | some d =>
      if (s.dat d).stage.hidden = false then
        if (s.dat d).ok then some ({ setRec s d ((s.dat d).release t) with refs := s.refs.filter (fun r => r.1 != o) }, [.dropped o]) else some (s, [.stale d])
      else none
    | none => none
  | .look o =>
    match ref s o with
    | some d => if (s.dat d).stage.hidden = false then if (s.dat d).ok then some (s, []) else some (s, [.stale d]) else none
    | none => none
  | .delete d =>
    if d < s.nr then
      match (s.dat d).dying with
      /- `heap_delete`, the deleter of the `shared_ptr` -/
      | some t => if (s.dat d).alive then some (setRec s d { s.dat d with alive := false, dying := none }, [.destroyed t d]) else some (s, [.stale d])
      | none => none
    else none
  | .exit t =>
    if client s t ∧ returned s t ∧ s.xc t = none then
      match s.cur t with
      | some d =>
        let x := s.dat d
        match P, x.stage with
        | .posix, .ext =>
          if x.ok then
            if s.rounds t < K then
              /- the system has set the value of the key to null; `shared_from_this()` (pthread/thread.cpp 92) -/
              some ({ setRec s d { x.addRef with stage := .xclean } with cur := upd s.cur t none, xc := upd s.xc t (some d), rounds := upd s.rounds t (s.rounds t + 1) }, [.round t d])
            else some ({ setRec s d { x with stage := .abandoned } with cur := upd s.cur t none }, [.abandoned t d])
          else some (s, [.stale d])
        | .posix, _ => none
        /- `run_thread_exit_callbacks` (win32/thread.cpp 258-284) -/
        | _, .ext => if x.ok then some ({ setRec s d { x with stage := .clean } with xc := upd s.xc t (some d) }, [.round t d]) else some (s, [.stale d])
        | _, _ => none
      | none => none
    else none
  | .finish t =>
    if client s t ∧ returned s t ∧ s.xc t = none ∧ s.cur t = none then some ({ s with done := upd s.done t true }, [.gone t]) else none

end Verif.Lifetime
