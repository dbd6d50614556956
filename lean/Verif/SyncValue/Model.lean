import Verif.Core.Run
/-!
# Model of `synchronized_value`

Models `/repo/include/boost/thread/synchronized_value.hpp`: any number of `synchronized_value` objects and threads. Reads and writes of a protected value are single steps;
assignment, swap and comparison of two objects are several of them, so that their atomicity is a matter of the locks.

* `recursive`: whether `Lockable` is a recursive mutex (`mutex`, the default, is not); a `try_lock` by the owner of a non-recursive mutex fails, a `lock` waits.
* `boost::lock` of two lockables is `/repo/include/boost/thread/lock_algorithms.hpp` 143-163, 87-98 (its general form is `Verif.LockAlg`).
* `legacy3`: the `synchronize` of three objects for compilers without variadic templates (1041-1062); with variadic templates `boost::lock` is given every mutex, and
  `synchronize` of two objects is the only case modelled.
* Values are numbers. A section is the use of what `operator->`, `operator()`, `operator*`, `synchronize` and `unique_synchronize` return (602-710, 749-814): the mutex is held
  from construction to destruction, in between the client reads and writes. `save` and `load` (820-834) and `swap` with a value (592-596) are sections too.
* The copy constructor (463-467) is `get` followed by the initialisation of an object nobody else can use.
* Not modelled: operations nested in a section; exceptions thrown by the operations of the value type; `value()` and `mutex()` (documented as not thread safe); the
  deferred, adopting and trying forms (712-742), which are `unique_lock`'s (`Verif.LockObj`).
-/

namespace Verif.SyncValue

inductive Cmp where
  | eq | ne | lt | gt | le | ge
deriving DecidableEq, Repr

/-- The comparison of the values: 847, 859, 871, 879, 887 and 893, 899, 905, 911, 917, 923; `!=` of two objects is the negation of `==` (955-959). -/
def Cmp.eval : Cmp → Nat → Nat → Bool
  | .eq, x, y => x == y
  | .ne, x, y => !(x == y)
  | .lt, x, y => x < y
  | .gt, x, y => x > y
  | .le, x, y => x ≤ y
  | .ge, x, y => x ≥ y

/-- The member function called by the operators with a value on the left (961-990). -/
def Cmp.mirror : Cmp → Cmp
  | .eq => .eq
  | .ne => .ne
  | .lt => .gt
  | .le => .ge
  | .gt => .lt
  | .ge => .le

/-- A comparison with a value, on the right or on the left. -/
def Cmp.withValue (left : Bool) (c : Cmp) (x v : Nat) : Bool := if left then c.mirror.eval x v else c.eval x v

/-- Operations with one object. -/
inductive One where
  /-- 525-529 -/
  | get
  /-- 507-514 -/
  | set (v : Nat)
  /-- 889-925; `left`: 961-990, the value is on the left -/
  | cmp (left : Bool) (c : Cmp) (v : Nat)
  | sect
deriving DecidableEq, Repr

/-- Operations with two objects. -/
inductive Two where
  /-- 490-501 -/
  | assign
  /-- 576-586 -/
  | swap
  /-- 841-888 -/
  | cmp (c : Cmp)
  /-- 1011-1018 -/
  | sync
  /-- 1041-1062: `synchronize(sv1, sv2, sv3)` -/
  | sync3 (k : Nat)
deriving DecidableEq, Repr

inductive PC where
  | idle
  /-- about to lock `k` -/
  | want (k : Nat) (o : One)
  /-- has locked `k` -/
  | in1 (k : Nat) (o : One)
  /-- `boost::lock`: about to lock one of the mutexes (`a`, or `b` when `flip`) -/
  | first (o : Two) (a b : Nat) (flip : Bool)
  /-- about to try the other -/
  | second (o : Two) (a b : Nat) (flip : Bool)
  /-- which failed: about to unlock the first -/
  | undo (o : Two) (a b : Nat) (flip : Bool)
  /-- holds both -/
  | in2 (o : Two) (a b : Nat)
  /-- has read the value of `b` -/
  | assign2 (a b y : Nat)
  /-- has read the value of `a` -/
  | cmp2 (c : Cmp) (a b x : Nat)
  | swap2 (a b x : Nat)
  /-- has also written the value of `a` -/
  | swap3 (a b x : Nat)
  /-- in a section with these objects -/
  | sect (ks : List Nat)
  /-- about to unlock these -/
  | unl (ks : List Nat)
deriving DecidableEq, Repr

structure State where
  val : Nat → Nat
  pc : Nat → PC := fun _ => .idle
  own : Nat → Option Nat := fun _ => none
  /-- how often the owner has locked it -/
  cnt : Nat → Nat := fun _ => 0

inductive Call where
  | one (k : Nat) (o : One)
  | two (a b : Nat) (o : Two)
deriving DecidableEq, Repr

inductive Label where
  | call (t : Nat) (c : Call)
  | go (t : Nat)
  /-- in a section: read or write object `k`, or leave -/
  | read (t k : Nat)
  | write (t k v : Nat)
  | leave (t : Nat)
deriving DecidableEq, Repr

inductive Event where
  | got (t k v : Nat)
  | set (t k v : Nat)
  | cmp1 (t k : Nat) (left : Bool) (c : Cmp) (v : Nat) (r : Bool)
  | assigned (t a b : Nat)
  | swapped (t a b : Nat)
  | compared (t a b : Nat) (c : Cmp) (r : Bool)
  /-- `t` enters a section with these objects -/
  | entered (t : Nat) (ks : List Nat)
  | read (t k v : Nat)
  | wrote (t k v : Nat)
  | left (t : Nat)
deriving DecidableEq, Repr

def upd {α : Type} (f : Nat → α) (i : Nat) (x : α) : Nat → α := fun j => if j = i then x else f j

def State.setPc (s : State) (t : Nat) (p : PC) : State := { s with pc := upd s.pc t p }

/-- The mutex of `k` is, or can be, acquired by `t`. -/
def State.free (recursive : Bool) (s : State) (t k : Nat) : Bool := s.own k == none || (recursive && s.own k == some t)

def State.acquire (s : State) (t k : Nat) : State := { s with own := upd s.own k (some t), cnt := upd s.cnt k (s.cnt k + 1) }

def State.unlock (s : State) (k : Nat) : State :=
  { s with own := if s.cnt k = 1 then upd s.own k none else s.own, cnt := upd s.cnt k (s.cnt k - 1) }

/-- The mutex `boost::lock` locks first, and the one it tries then. -/
def fst (a b : Nat) (flip : Bool) : Nat := if flip then b else a
def snd (a b : Nat) (flip : Bool) : Nat := if flip then a else b

def call (legacy3 : Bool) (s : State) (t : Nat) : Call → Option (State × List Event)
  | .one k o => some (s.setPc t (.want k o), [])
  | .two a b o =>
    match o with
    | .assign => if a = b then some (s, [.assigned t a b]) else some (s.setPc t (.first o a b false), [])     -- 492
    | .swap => if a = b then some (s, [.swapped t a b]) else some (s.setPc t (.first o a b false), [])         -- 578-580
    | .sync3 _ => if legacy3 then some (s.setPc t (.first o a b false), []) else none
    | _ => some (s.setPc t (.first o a b false), [])

def go (recursive : Bool) (s : State) (t : Nat) : Option (State × List Event) :=
  match s.pc t with
  | .idle => none
  | .want k o => if s.free recursive t k then some ((s.acquire t k).setPc t (.in1 k o), []) else none
  | .in1 k .get => some (s.setPc t (.unl [k]), [.got t k (s.val k)])
  | .in1 k (.set v) => some ({ s with val := upd s.val k v }.setPc t (.unl [k]), [.set t k v])
  | .in1 k (.cmp left c v) => some (s.setPc t (.unl [k]), [.cmp1 t k left c v (c.withValue left (s.val k) v)])
  | .in1 k .sect => some (s.setPc t (.sect [k]), [.entered t [k]])
  | .first o a b f => if s.free recursive t (fst a b f) then some ((s.acquire t (fst a b f)).setPc t (.second o a b f), []) else none
  | .second o a b f =>
    if s.free recursive t (snd a b f) then some ((s.acquire t (snd a b f)).setPc t (.in2 o a b), []) else some (s.setPc t (.undo o a b f), [])
  | .undo o a b f => some ((s.unlock (fst a b f)).setPc t (.first o a b (!f)), [])
  | .in2 .assign a b => some (s.setPc t (.assign2 a b (s.val b)), [])
  | .assign2 a b y => some ({ s with val := upd s.val a y }.setPc t (.unl [b, a]), [.assigned t a b])
  | .in2 (.cmp c) a b => some (s.setPc t (.cmp2 c a b (s.val a)), [])
  | .cmp2 c a b x => some (s.setPc t (.unl [b, a]), [.compared t a b c (c.eval x (s.val b))])
  | .in2 .swap a b => some (s.setPc t (.swap2 a b (s.val a)), [])
  | .swap2 a b x => some ({ s with val := upd s.val a (s.val b) }.setPc t (.swap3 a b x), [])
  | .swap3 a b x => some ({ s with val := upd s.val b x }.setPc t (.unl [b, a]), [.swapped t a b])
  | .in2 .sync a b => some (s.setPc t (.sect [a, b]), [.entered t [a, b]])
  -- 1048: `boost::lock(sv1.mtx_, sv2.mtx_)`; the third mutex is "adopted" at 1059 without having been locked
  | .in2 (.sync3 k) a b => some (s.setPc t (.sect [a, b, k]), [.entered t [a, b, k]])
  | .sect _ => none
  | .unl [] => some (s.setPc t .idle, [])
  | .unl (k :: ks) => some ((s.unlock k).setPc t (.unl ks), [])

def step (recursive legacy3 : Bool) (s : State) : Label → Option (State × List Event)
  | .call t c => if s.pc t = .idle then call legacy3 s t c else none
  | .go t => go recursive s t
  | .read t k =>
    match s.pc t with
    | .sect ks => if k ∈ ks then some (s, [.read t k (s.val k)]) else none
    | _ => none
  | .write t k v =>
    match s.pc t with
    | .sect ks => if k ∈ ks then some ({ s with val := upd s.val k v }, [.wrote t k v]) else none
    | _ => none
  | .leave t =>
    match s.pc t with
    | .sect ks => some (s.setPc t (.unl ks.reverse), [.left t])
    | _ => none

def init (v : Nat → Nat) : State := { val := v }

end Verif.SyncValue
