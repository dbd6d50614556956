import Verif.Core.Run
import Verif.Core.Threads
/-!
# Model of `unique_lock`, `shared_lock`, `upgrade_lock` and `upgrade_to_unique_lock`

Models `/repo/include/boost/thread/lock_types.hpp`, lines 98-498 (`unique_lock`), 502-763 (`shared_lock`), 765-1036 (`upgrade_lock`), 1040-1049 and
1051-1119 (`upgrade_to_unique_lock`).

The three classes have the same two members and, except for the mutex operation they call, the same functions; the model has one definition per
function and a `Kind`. A state holds any number of lock objects; a constructor appends one, a destructor leaves an empty slot. Temporaries of the code
are local values of the model. Operations are atomic: a lock object belongs to one thread. The outcome of every mutex operation is resolved by the label.

Simplifications: the timed functions differ from `try_lock` only in the mutex operation called, and are modelled by it; releases made by destructors
do not throw (they would end the program).
-/

namespace Verif.LockObj

inductive Kind where
  | unique | shared | upgrade
deriving DecidableEq, Repr

/-- A lock object: members `m` and `is_locked`, 102-103, 506-507, 769-770. -/
structure Obj where
  kind : Kind
  m : Option Nat
  owned : Bool
deriving DecidableEq, Repr

/-- `upgrade_to_unique_lock`, 1055-1056; `source` is the index of the `upgrade_lock` it points to. -/
structure Up where
  source : Option Nat
  ex : Obj
deriving DecidableEq, Repr

structure State where
  objs : List (Option Obj)
  ups : List (Option Up)
deriving DecidableEq, Repr

inductive Err where
  /-- `operation_not_permitted`, no mutex -/
  | noMutex
  /-- `resource_deadlock_would_occur` -/
  | already
  /-- `operation_not_permitted`, not owned -/
  | notOwner
deriving DecidableEq, Repr

inductive Event where
  /-- a `lock`, `try_lock`, ... of mutex `m` in this mode succeeded -/
  | acquired (m : Nat) (k : Kind)
  /-- the mutex is released -/
  | released (m : Nat) (k : Kind)
  /-- ownership of the mutex is converted from one mode to another -/
  | converted (m : Nat) (k k' : Kind)
  /-- the client hands an acquisition it holds to a lock object (`adopt_lock`) -/
  | adopted (m : Nat) (k : Kind)
  /-- `release()` hands an acquisition to the client -/
  | handedOut (m : Nat) (k : Kind)
  | lockError (o : Nat) (e : Err)
  /-- a mutex operation threw; the exception leaves the function -/
  | threw
  | tried (o : Nat) (b : Bool)
  | ownsIs (o : Nat) (b : Bool)
  | mutexIs (o : Nat) (m : Option Nat)
  /-- the pointer returned by `release()` -/
  | releasedPtr (o : Nat) (m : Option Nat)
  | upOwnsIs (u : Nat) (b : Bool)
  /-- the `upgrade_lock` an `upgrade_to_unique_lock` refers to no longer exists -/
  | dangling
  /-- a mutex operation through a null pointer -/
  | nullDeref
deriving DecidableEq, Repr

inductive TryResult where
  | yes | no | throws
deriving DecidableEq, Repr

inductive Label where
  | ctor (k : Kind)
  | ctorLock (k : Kind) (m : Nat) (ok : Bool)
  | ctorAdopt (k : Kind) (m : Nat)
  | ctorDefer (k : Kind) (m : Nat)
  | ctorTry (k : Kind) (m : Nat) (r : TryResult)
  | move (src : Nat)
  | convert (src : Nat) (k : Kind) (ok : Bool)
  | tryConvert (src : Nat) (k : Kind) (r : TryResult)
  | assign (dst src : Nat)
  | assignConvert (dst src : Nat) (ok : Bool)
  | swap (a b : Nat)
  | destroy (o : Nat)
  | lock (o : Nat) (ok : Bool)
  | tryLock (o : Nat) (r : TryResult)
  | unlock (o : Nat) (ok : Bool)
  | owns (o : Nat)
  | mutex (o : Nat)
  | release (o : Nat)
  | upCtor (src : Nat) (ok : Bool)
  | upMove (u : Nat)
  | upAssign (dst src : Nat)
  | upSwap (u v : Nat)
  | upOwns (u : Nat)
  | upDestroy (u : Nat)
deriving DecidableEq, Repr

def init : State := { objs := [], ups := [] }

/-! ## Functions on objects -/

/-- The default constructors, 117-119, 513-515, 776-778. -/
def Obj.empty (k : Kind) : Obj := { kind := k, m := none, owned := false }

/-- The move constructors, 167-172, 557-562, 814-819: the new object and what is left of `other`. -/
def Obj.moveFrom (other : Obj) : Obj × Obj := (other, { other with m := none, owned := false })

/-- `swap`, 321-325, 609-613, 908-912. -/
def Obj.swap (a b : Obj) : Obj × Obj := ({ a with m := b.m, owned := b.owned }, { b with m := a.m, owned := a.owned })

/-- The destructors, 327-333, 628-634, 925-931. -/
def Obj.dtor (a : Obj) : List Event :=
  if a.owned then
    match a.m with
    | some m => [.released m a.kind]
    | none => [.nullDeref]
  else []

/-- `release()`, 481-487, 620-626, 918-924: what is left of the object; it returns `m`. -/
def Obj.release (a : Obj) : Obj := { a with m := none, owned := false }

/-- Which converting constructors exist: 1041, 564, 575, 821. -/
def canConvert : Kind → Kind → Bool
  | .upgrade, .unique => true
  | .unique, .shared => true
  | .upgrade, .shared => true
  | .unique, .upgrade => true
  | _, _ => false

/-- Which converting `try_to_lock` (and timed) constructors exist: 204-258, 263-317, 851-905. -/
def canTryConvert : Kind → Kind → Bool
  | .upgrade, .unique => true
  | .shared, .unique => true
  | .shared, .upgrade => true
  | _, _ => false

/-- The converting constructors, 564-573, 575-584, 821-830, 1040-1049: the new object, what is left of `other`; `none` for the object if the conversion
threw, in which case `other` is as before. -/
def Obj.convertFrom (k : Kind) (other : Obj) (ok : Bool) : Option Obj × Obj × List Event :=
  if other.owned then
    match other.m with
    | some m =>
      if ok then (some { kind := k, m := other.m, owned := other.owned }, { other with m := none, owned := false }, [.converted m other.kind k])
      else (none, other, [.threw])
    | none => (none, other, [.nullDeref])
  else (some { kind := k, m := other.m, owned := other.owned }, { other with m := none, owned := false }, [])

/-- The converting `try_to_lock` constructors, 204-219, 263-278, 851-866. -/
def Obj.tryConvertFrom (k : Kind) (other : Obj) (r : TryResult) : Option Obj × Obj × List Event :=
  if other.owned then
    match other.m with
    | some m =>
      match r with
      | .yes => (some { kind := k, m := some m, owned := true }, other.release, [.converted m other.kind k])
      | .no => (some (Obj.empty k), other, [])
      | .throws => (none, other, [.threw])
    | none => (none, other, [.nullDeref])
  else (some { kind := k, m := other.m, owned := false }, other.release, [])

/-! ## Objects in the state -/

def getO (s : State) (o : Nat) : Option Obj := (s.objs[o]?).join
def getU (s : State) (u : Nat) : Option Up := (s.ups[u]?).join
def setO (s : State) (o : Nat) (a : Obj) : State := { s with objs := s.objs.set o (some a) }
def setU (s : State) (u : Nat) (a : Up) : State := { s with ups := s.ups.set u (some a) }
def addO (s : State) (a : Obj) : State := { s with objs := s.objs ++ [some a] }
def addU (s : State) (a : Up) : State := { s with ups := s.ups ++ [some a] }

/-- `*dst = move(src)` where `src` has become the temporary `temp`: 187-192, 587-592, 833-838 (also 178-183, 594-606, 841-846): swap with the temporary and
destroy that. -/
def assignTemp (s : State) (dst : Nat) (a temp : Obj) : State × List Event :=
  (setO s dst (a.swap temp).1, (a.swap temp).2.dtor)

/-- `~upgrade_to_unique_lock`, 1066-1072. The temporary is an `upgrade_lock` made from `exclusive`, which is then assigned to `*source`; the conversion
`unlock_and_lock_upgrade` does not fail. -/
def upDtor (s : State) (x : Up) : State × List Event :=
  match x.source with
  | none => (s, x.ex.dtor)
  | some src =>
    match getO s src with
    | none => (s, [.dangling])
    | some a =>
      match x.ex.convertFrom .upgrade true with
      | (some temp, ex', es) => ((assignTemp s src a temp).1, es ++ (assignTemp s src a temp).2 ++ ex'.dtor)
      | (none, ex', es) => (s, es ++ ex'.dtor)

def step (s : State) : Label → Option (State × List Event)
  | .ctor k => some (addO s (.empty k), [])
  | .ctorLock k m ok =>                                                    -- 121-125, 517-521, 780-784
    if ok then some (addO s { kind := k, m := some m, owned := true }, [.acquired m k]) else some (s, [.threw])
  | .ctorAdopt k m => some (addO s { kind := k, m := some m, owned := true }, [.adopted m k])     -- 126-132, 522-528, 785-791
  | .ctorDefer k m => some (addO s { kind := k, m := some m, owned := false }, [])                -- 133-135, 529-531, 792-794
  | .ctorTry k m r =>                                                      -- 136-164, 532-554, 795-811
    match r with
    | .yes => some (addO s { kind := k, m := some m, owned := true }, [.acquired m k])
    | .no => some (addO s { kind := k, m := some m, owned := false }, [])
    | .throws => some (s, [.threw])
  | .move src => do
    let b ← getO s src
    some (addO (setO s src b.moveFrom.2) b.moveFrom.1, [])
  | .convert src k ok => do
    let b ← getO s src
    if canConvert b.kind k then
      match b.convertFrom k ok with
      | (some a, b', es) => some (addO (setO s src b') a, es)
      | (none, b', es) => some (setO s src b', es)
    else none
  | .tryConvert src k r => do
    let b ← getO s src
    if canTryConvert b.kind k then
      match b.tryConvertFrom k r with
      | (some a, b', es) => some (addO (setO s src b') a, es)
      | (none, b', es) => some (setO s src b', es)
    else none
  | .assign dst src => do                                                  -- 187-192, 587-592, 833-838
    let b ← getO s src
    let s1 := setO s src b.moveFrom.2
    let a ← getO s1 dst
    if a.kind = b.kind then some (assignTemp s1 dst a b.moveFrom.1) else none
  | .assignConvert dst src ok => do                                        -- 178-183, 594-606, 841-846
    let b ← getO s src
    let a ← getO s dst
    if canConvert b.kind a.kind then
      match b.convertFrom a.kind ok with
      | (some temp, b', es) => some ((assignTemp (setO s src b') dst a temp).1, es ++ (assignTemp (setO s src b') dst a temp).2)
      | (none, b', es) => some (setO s src b', es)
    else none
  | .swap x y => do                                                        -- 321-325
    let a ← getO s x
    let b ← getO s y
    if a.kind = b.kind then
      if x = y then some (s, []) else some (setO (setO s x (a.swap b).1) y (a.swap b).2, [])
    else none
  | .destroy o => do
    let a ← getO s o
    some ({ s with objs := s.objs.set o none }, a.dtor)
  | .lock o ok => do                                                       -- 334-348, 635-647, 932-946
    let a ← getO s o
    match a.m with
    | none => some (s, [.lockError o .noMutex])
    | some m =>
      if a.owned then some (s, [.lockError o .already])
      else if ok then some (setO s o { a with owned := true }, [.acquired m a.kind])
      else some (s, [.threw])
  | .tryLock o r => do                                                     -- 349-436, 648-718, 947-961, 978-1005
    let a ← getO s o
    match a.m with
    | none => some (s, [.lockError o .noMutex])
    | some m =>
      if a.owned then some (s, [.lockError o .already])
      else
        match r with
        | .yes => some (setO s o { a with owned := true }, [.acquired m a.kind, .tried o true])
        | .no => some (setO s o { a with owned := false }, [.tried o false])
        | .throws => some (s, [.threw])
  | .unlock o ok => do                                                     -- 439-453, 720-732, 962-976
    let a ← getO s o
    match a.m with
    | none => some (s, [.lockError o .noMutex])
    | some m =>
      if a.owned = false then some (s, [.lockError o .notOwner])
      else if ok then some (setO s o { a with owned := false }, [.released m a.kind])
      else some (s, [.threw])
  | .owns o => do                                                          -- 471-474, 750-753, 1023-1026
    let a ← getO s o
    some (s, [.ownsIs o a.owned])
  | .mutex o => do                                                         -- 476-479, 615-618, 913-916
    let a ← getO s o
    some (s, [.mutexIs o a.m])
  | .release o => do                                                       -- 481-487, 620-626, 918-924
    let a ← getO s o
    some (setO s o a.release,
      (if a.owned then (match a.m with | some m => [.handedOut m a.kind] | none => []) else []) ++ [.releasedPtr o a.m])
  | .upCtor src ok => do                                                   -- 1062-1065
    let b ← getO s src
    if b.kind = .upgrade then
      match b.convertFrom .unique ok with
      | (some a, b', es) => some (addU (setO s src b') { source := some src, ex := a }, es)
      | (none, b', es) => some (setO s src b', es)
    else none
  | .upMove u => do                                                        -- 1074-1078
    let x ← getU s u
    some (addU (setU s u { source := none, ex := x.ex.moveFrom.2 }) { source := x.source, ex := x.ex.moveFrom.1 }, [])
  | .upAssign dst src => do                                                -- 1081-1086
    let x ← getU s src
    let s1 := setU s src { source := none, ex := x.ex.moveFrom.2 }
    let y ← getU s1 dst
    some (upDtor (setU s1 dst { source := x.source, ex := (y.ex.swap x.ex).1 }) { source := y.source, ex := (y.ex.swap x.ex).2 })
  | .upSwap u v => do                                                      -- 1088-1092
    let x ← getU s u
    let y ← getU s v
    if u = v then some (s, [])
    else some (setU (setU s u { source := y.source, ex := (x.ex.swap y.ex).1 }) v { source := x.source, ex := (x.ex.swap y.ex).2 }, [])
  | .upOwns u => do                                                        -- 1111-1114
    let x ← getU s u
    some (s, [.upOwnsIs u x.ex.owned])
  | .upDestroy u => do
    let x ← getU s u
    some (upDtor { s with ups := s.ups.set u none } x)

end Verif.LockObj
