import Verif.Core.Run
/-!
# Model of the end of a thread: exit callbacks and thread-specific data

Models one thread started by the library, from `thread_proxy` (/repo/src/pthread/thread.cpp 161-201) on:

* `tls_destructor` 91-122, `add_thread_exit_function` 706-712, `find_tss_data` 714-727, `get_tss_data` 729-736, `add_new_tss_node` 738-745, `erase_tss_node` 747-754,
  `set_tss_data` 756-781 of /repo/src/pthread/thread.cpp;
* `thread_specific_ptr` of /repo/include/boost/thread/tss.hpp 27-96.

The function of the thread, the callbacks and the cleanup functions are arbitrary code, which may use all of these operations, nested to any depth: the labels say what the
code that is running does next. `acts` is the stack of callbacks and cleanup functions being run.

* Slots (`thread_specific_ptr` objects) are the numbers below `nk`, in the order of their addresses; `fn k` says whether slot `k` has a cleanup function. Values are numbers,
  0 is the null pointer.
* The nodes of the map have an identity: an iterator or a pointer to a node that has been erased dangles, even if there is a new node with the same key. Using it is undefined
  behaviour, here the event `ub`, after which nothing is modelled.
* On Windows the code is the same (`run_thread_exit_callbacks` 256-285 and the functions at 899-968 of /repo/src/win32/thread.cpp), for all threads.
* Threads not started by the library on POSIX, for which the key is already null when `tls_destructor` runs, are in `Verif.ForeignExit`. Not modelled: exceptions thrown by callbacks and cleanup
  functions (they terminate the program).
-/

namespace Verif.ThreadExit

/-- `tss_data_node` (/repo/include/boost/thread/pthread/thread_data.hpp 95-107); the `caller` of a slot never changes. -/
structure Node where
  val : Nat
  fn : Bool
  id : Nat
deriving DecidableEq, Repr

/-- The code being run on top of the function of the thread or of `tls_destructor`. -/
inductive Act where
  /-- callback `n`, called at thread.cpp 107 -/
  | cb (n : Nat)
  /-- the cleanup function of slot `k`, called at 118; line 120 will erase node `id` -/
  | clean (k id : Nat)
  /-- the cleanup function of slot `k`, called at 765; lines 767-776 will then store `v` with the cleanup function `f` in node `id` -/
  | cleanFor (k id : Nat) (f : Bool) (v : Nat)
deriving DecidableEq, Repr

inductive Base where
  /-- in the function of the thread -/
  | body
  /-- in `tls_destructor`, in the loop at 101 -/
  | tearCb
  /-- in `tls_destructor`, in the loop at 112 -/
  | tearTss
  | ended
deriving DecidableEq, Repr

structure State where
  /-- `thread_exit_callbacks` -/
  cbs : List Nat := []
  n : Nat := 0
  /-- `tss_data` -/
  node : Nat → Option Node := fun _ => none
  nid : Nat := 0
  base : Base := .body
  acts : List Act := []
  ub : Bool := false

inductive Op where
  | atExit
  | get (k : Nat)
  | release (k : Nat)
  | reset (k v : Nat)
  /-- the destructor of the `thread_specific_ptr` -/
  | destroy (k : Nat)
deriving DecidableEq, Repr

inductive Label where
  /-- the running code calls an operation -/
  | op (o : Op)
  /-- the running code returns -/
  | ret
  /-- `tls_destructor` goes on -/
  | go
deriving DecidableEq, Repr

inductive Event where
  | registered (n : Nat)
  | ran (n : Nat)
  | got (k v : Nat)
  | released (k v : Nat)
  /-- `reset(v)`, or the destructor for `v = 0` -/
  | resetCall (k v : Nat)
  | resetRet (k v : Nat)
  /-- the cleanup function of `k` is called with `v` -/
  | cleaned (k v : Nat)
  | cleanRet (k : Nat)
  /-- the function of the thread has returned -/
  | bodyRet
  | ended
  | ub
deriving DecidableEq, Repr

def upd {α : Type} (f : Nat → α) (i : Nat) (x : α) : Nat → α := fun j => if j = i then x else f j

/-- `get_tss_data` (729-736). -/
def State.val (s : State) (k : Nat) : Nat :=
  match s.node k with
  | some nd => nd.val
  | none => 0

/-- 767-776. -/
def State.store (s : State) (k id : Nat) (f : Bool) (v : Nat) : State :=
  if f || v != 0 then { s with node := upd s.node k (some ⟨v, f, id⟩) } else { s with node := upd s.node k none }

/-- `set_tss_data(key, caller, f, v, true)` (756-781). -/
def setTss (s : State) (k : Nat) (f : Bool) (v : Nat) : State × List Event :=
  match s.node k with
  | some nd =>
    if nd.fn && nd.val != 0 then ({ s with acts := .cleanFor k nd.id f v :: s.acts }, [.resetCall k v, .cleaned k nd.val])
    else (s.store k nd.id f v, [.resetCall k v, .resetRet k v])
  | none =>
    if f || v != 0 then ({ s with node := upd s.node k (some ⟨v, f, s.nid⟩), nid := s.nid + 1 }, [.resetCall k v, .resetRet k v])
    else (s, [.resetCall k v, .resetRet k v])

def op (nk : Nat) (fn : Nat → Bool) (s : State) : Op → Option (State × List Event)
  | .atExit => some ({ s with cbs := s.n :: s.cbs, n := s.n + 1 }, [.registered s.n])
  | .get k => if nk ≤ k then none else some (s, [.got k (s.val k)])
  -- tss.hpp 81-86: `set_tss_data(this,0,0,0,false)` erases the node
  | .release k => if nk ≤ k then none else some ({ s with node := upd s.node k none }, [.released k (s.val k)])
  -- tss.hpp 87-94
  | .reset k v =>
    if nk ≤ k then none
    else if s.val k ≠ v then some (setTss s k (fn k) v) else some (s, [.resetCall k v, .resetRet k v])
  -- tss.hpp 62-65
  | .destroy k => if nk ≤ k then none else some (setTss s k false 0)

/-- The node a pointer or iterator refers to is still there. -/
def State.valid (s : State) (k id : Nat) : Bool :=
  match s.node k with
  | some nd => nd.id == id
  | none => false

def ret (s : State) : Option (State × List Event) :=
  match s.acts with
  | [] => if s.base = .body then some ({ s with base := .tearCb }, [.bodyRet]) else none
  | .cb _ :: as => some ({ s with acts := as }, [])
  | .clean k id :: as =>
    if s.valid k id then some ({ s with acts := as, node := upd s.node k none }, [.cleanRet k]) else some ({ s with ub := true }, [.ub])
  | .cleanFor k id f v :: as =>
    if s.valid k id then some ({ s with acts := as }.store k id f v, [.cleanRet k, .resetRet k v]) else some ({ s with ub := true }, [.ub])

/-- `tss_data.begin()`. -/
def State.first (s : State) (nk : Nat) : Option Nat := (List.range nk).find? fun k => (s.node k).isSome

def go (nk : Nat) (s : State) : Option (State × List Event) :=
  match s.base with
  | .body => none
  | .ended => none
  | .tearCb =>
    match s.cbs with
    | [] => some ({ s with base := .tearTss }, [])
    | n :: r => some ({ s with cbs := r, acts := [.cb n] }, [.ran n])
  | .tearTss =>
    match s.first nk with
    | none => if s.cbs = [] then some ({ s with base := .ended }, [.ended]) else some ({ s with base := .tearCb }, [])
    | some k =>
      match s.node k with
      | none => none
      | some nd =>
        if nd.fn && nd.val != 0 then some ({ s with acts := [.clean k nd.id] }, [.cleaned k nd.val])
        else some ({ s with node := upd s.node k none }, [])

def step (nk : Nat) (fn : Nat → Bool) (s : State) (l : Label) : Option (State × List Event) :=
  if s.ub then none
  else match l with
  | .op o => if s.acts = [] ∧ s.base ≠ .body then none else op nk fn s o
  | .ret => ret s
  | .go => if s.acts = [] then go nk s else none

end Verif.ThreadExit
