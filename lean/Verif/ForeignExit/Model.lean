import Verif.ThreadExit.Spec
/-!
# Model of the end of a thread that the library did not start, on POSIX

Models, for such a thread, `get_current_thread_data` (/repo/src/pthread/thread.cpp 146-150), `make_external_thread_data` 235-241, `get_or_make_current_thread_data` 244-252 and `tls_destructor` 91-122,
which the system calls as the destructor of the key `current_thread_tls_key`, and the functions for callbacks and thread-specific data as in `Verif.ThreadExit`, whose model of them is used.

Before the system calls the destructor it sets the key of the thread to null. So callbacks and cleanup functions do not see the data that are being destroyed; if they need some, new ones are made, and
the system will call the destructor again, up to `it` times (`PTHREAD_DESTRUCTOR_ITERATIONS`). The same happens in a thread started by the library once `thread_proxy` has set the key to null (line 197),
if destructors of other keys use the library.

* `cur`: the data the key refers to, with the code that is running in `acts`; `made`: the key is not null. `oldCbs`, `oldNode`: the data being destroyed, `thread_info` in `tls_destructor`.
* In phase `sys` the system runs the destructors of other keys, which may use the library as well.
* Callbacks and cleanup functions are arbitrary code, as in `Verif.ThreadExit`; exceptions thrown by them are not modelled.
-/

namespace Verif.ForeignExit
open ThreadExit (State Op Event Node Sp upd)

inductive Phase where
  /-- in the function of the thread -/
  | body
  /-- in the system, between two calls of `tls_destructor` -/
  | sys
  /-- in `tls_destructor`, in the loop at 101 -/
  | tearCb
  /-- in `tls_destructor`, in the loop at 112 -/
  | tearTss
  | ended
deriving DecidableEq, Repr

/-- What `tls_destructor` has called, at 107 or 118. -/
inductive Top where
  | cb
  | clean (k : Nat)
deriving DecidableEq, Repr

structure FState where
  cur : State := {}
  made : Bool := false
  oldCbs : List Nat := []
  oldNode : Nat → Option Node := fun _ => none
  phase : Phase := .body
  top : Option Top := none
  rounds : Nat := 0

inductive FLabel where
  /-- the running code calls an operation -/
  | op (o : Op)
  /-- the running code calls something else that makes the data, as `this_thread::get_id` can -/
  | touch
  /-- the running code returns -/
  | ret
  /-- the system starts another round of destructors -/
  | round
  /-- `tls_destructor` goes on -/
  | go
  /-- the system ends the thread -/
  | fin
deriving DecidableEq, Repr

inductive FEvent where
  /-- something done by or called from the running code -/
  | now (e : Event)
  | bodyRet
  | round
  /-- `tls_destructor` calls callback `n`, or the cleanup function of `k` with `v` -/
  | ran (n : Nat)
  | cleaned (k v : Nat)
  /-- which returns -/
  | back
  | ended
deriving DecidableEq, Repr

/-- There are callbacks or nodes, so the data have been made. -/
def holds (nk : Nat) (c : State) : Bool := !c.cbs.isEmpty || (List.range nk).any fun k => (c.node k).isSome

/-- `tss_data.begin()` of the data being destroyed. -/
def FState.first (s : FState) (nk : Nat) : Option Nat := (List.range nk).find? fun k => (s.oldNode k).isSome

/-- Code of the client is running, in which anything can be called. -/
def FState.inCode (s : FState) : Bool := decide (s.phase = .body) || decide (s.phase = .sys) || s.top.isSome

/-- `tls_destructor`, 99-119. -/
def go (nk : Nat) (s : FState) : Option (FState × List FEvent) :=
  match s.phase with
  | .tearCb =>
    match s.oldCbs with
    | [] => some ({ s with phase := .tearTss }, [])
    | n :: r => some ({ s with oldCbs := r, top := some .cb }, [.ran n])
  | .tearTss =>
    match s.first nk with
    | none => if s.oldCbs = [] then some ({ s with phase := .sys }, []) else some ({ s with phase := .tearCb }, [])
    | some k =>
      match s.oldNode k with
      | none => none
      | some nd =>
        if nd.fn && nd.val != 0 then some ({ s with top := some (.clean k) }, [.cleaned k nd.val])
        else some ({ s with oldNode := upd s.oldNode k none }, [])
  | _ => none

def step (it nk : Nat) (fn : Nat → Bool) (s : FState) (l : FLabel) : Option (FState × List FEvent) :=
  if s.cur.ub then none
  else match l with
  | .op o =>
    if s.inCode then
      match ThreadExit.op nk fn s.cur o with
      | some (c, es) => some ({ s with cur := c, made := s.made || holds nk c }, es.map .now)
      | none => none
    else none
  | .touch => if s.inCode then some ({ s with made := true }, []) else none
  | .ret =>
    if s.cur.acts ≠ [] then
      match ThreadExit.ret s.cur with
      | some (c, es) => some ({ s with cur := c, made := s.made || holds nk c }, es.map .now)
      | none => none
    else match s.top with
    | some .cb => some ({ s with top := none }, [.back])
    | some (.clean k) => some ({ s with top := none, oldNode := upd s.oldNode k none }, [.back])
    | none => if s.phase = .body then some ({ s with phase := .sys }, [.bodyRet]) else none
  | .round =>
    if s.phase = .sys ∧ s.cur.acts = [] ∧ s.rounds < it then
      if s.made then
        some ({ s with cur := { s.cur with cbs := [], node := fun _ => none }, made := false, oldCbs := s.cur.cbs, oldNode := s.cur.node, phase := .tearCb, rounds := s.rounds + 1 }, [.round])
      else some ({ s with rounds := s.rounds + 1 }, [.round])
    else none
  | .go => if s.cur.acts = [] ∧ s.top = none then go nk s else none
  | .fin => if s.phase = .sys ∧ s.cur.acts = [] ∧ (s.rounds = it ∨ s.made = false) then some ({ s with phase := .ended }, [.ended]) else none

end Verif.ForeignExit
