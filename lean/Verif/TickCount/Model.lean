import Verif.Core.Run
/-!
# Model of the emulated `GetTickCount64`

Models `get_tick_count64`, `refresh_get_tick_count64` and `get_tick_count_init` (/repo/src/win32/thread_primitives.cpp 55-73, 91-146), for Windows versions without `GetTickCount64`: the 64-bit
count of milliseconds on which all timed waits on Windows are based is made from `GetTickCount()`, which has 32 bits and wraps around every 49.7 days.

* Any number of threads; thread 0 is the one of the system thread pool that executes the periodic refresh. The load and the store of `g_state.ticks`, the call of `GetTickCount()`, the
  `compare_exchange` and the registration are steps of their own; time passes between them as the environment wants.
* `timed`: the environment keeps to bounds (`advance`): a call takes `D` milliseconds at most, the refresh begins at least every `P` milliseconds once it is registered (130: 0x7fffffff), and there is
  no wrap-around of `GetTickCount()` from the beginning of the first call until no call that began before the first one was through is in progress any more.
* Simplified: the count is a natural number (64 bits last for 584 million years), so that masking with `0xffffffff00000000` and `0x00000000ffffffff` are a division and a remainder, and `|` adds.
  No native `GetTickCount64` is found (93-120). The event and its handle, and the cleanup at exit, are not modelled.
* The fields `now`, `rd`, `st`, `off`, `beg`, `cold`, `lastB` are not in the code: they say when things happened.
-/

namespace Verif.TickCount

def upd {α : Type} (f : Nat → α) (i : Nat) (x : α) : Nat → α := fun j => if j = i then x else f j

@[grind =] theorem upd_apply {α : Type} (f : Nat → α) (i j : Nat) (x : α) : upd f i x j = if j = i then x else f j := rfl

/-- 2^32 -/
abbrev W : Nat := 4294967296

structure Cfg where
  /-- threads `1 … n`, and the refresh as thread 0 -/
  n : Nat
  D : Nat
  P : Nat
  timed : Bool

inductive PC where
  | out
  /-- in `get_tick_count_init`, before `compare_exchange_strong` (124) -/
  | init
  /-- before `RegisterWaitForSingleObject` (130) -/
  | register
  /-- before `g_state.ticks.load` (57) -/
  | load
  /-- before `GetTickCount()` (59): the old state, and when it was read from the system -/
  | read (old rd : Nat)
  /-- before `g_state.ticks.store` (64): the new state, and when it was read -/
  | store (v rd : Nat)
deriving DecidableEq, Repr

structure State where
  now : Nat
  /-- `g_state.ticks` -/
  ticks : Nat
  /-- when that value was read from the system, and when it was stored -/
  rd : Nat
  st : Nat
  /-- `g_state.init` is not `uninitialized` -/
  busy : Bool
  /-- `gettickcount64` points to `get_tick_count64` -/
  installed : Bool
  /-- a call has begun -/
  called : Bool
  /-- the beginning of the 32-bit period in which the first call began -/
  off : Nat
  /-- something has been stored since the refresh was registered -/
  warm : Bool
  /-- when the last refresh began (the registration, at first) -/
  lastB : Nat
  pc : Nat → PC
  /-- when the call began, and whether that was before `warm` -/
  beg : Nat → Nat
  cold : Nat → Bool

def init (start : Nat) : State :=
  { now := start, ticks := 0, rd := 0, st := 0, busy := false, installed := false, called := false, off := 0, warm := false, lastB := 0, pc := fun _ => .out, beg := fun _ => 0, cold := fun _ => false }

inductive Event where
  /-- thread `t` calls the function at this time -/
  | began (t now : Nat)
  | returned (t v now : Nat)
  | registered (t : Nat)
deriving DecidableEq, Repr

inductive Label where
  | advance (k : Nat)
  | call (t : Nat)
  | go (t : Nat)
  /-- the registration succeeds, or fails -/
  | regOk (t : Nat)
  | regFail (t : Nat)
deriving DecidableEq, Repr

/-- `GetTickCount()`. -/
def getTickCount (s : State) : Nat := s.now % W

/-- 61-62 -/
def combine (old new : Nat) : Nat := (old / W * W + if new < old % W then W else 0) + new

/-- What the environment keeps to while `k` milliseconds pass. -/
def timely (c : Cfg) (s : State) (k : Nat) : Prop :=
  (∀ t, t < c.n + 1 → s.pc t ≠ .out → s.now + k ≤ s.beg t + c.D) ∧
  (s.installed = true → s.now + k ≤ s.lastB + c.P) ∧
  (s.called = true → (s.warm = false ∨ ∃ t, t < c.n + 1 ∧ s.pc t ≠ .out ∧ s.cold t = true) → s.now + k < s.off + W)

instance (c : Cfg) (s : State) (k : Nat) : Decidable (timely c s k) := by unfold timely; infer_instance

/-- A call begins: through the pointer `gettickcount64`, or as refresh. -/
def call (s : State) (t : Nat) : State :=
  { s with
    pc := upd s.pc t (if s.installed then .load else .init)
    beg := upd s.beg t s.now
    cold := upd s.cold t (!s.warm)
    called := true
    off := if s.called then s.off else s.now / W * W
    rd := if s.called then s.rd else s.now / W * W
    lastB := if t = 0 then s.now else s.lastB }

def go (s : State) (t : Nat) : Option (State × List Event) :=
  match s.pc t with
  | .out => none
  | .init => if s.busy then some ({ s with pc := upd s.pc t .load }, []) else some ({ s with busy := true, pc := upd s.pc t .register }, [])
  | .register => none
  | .load => some ({ s with pc := upd s.pc t (.read s.ticks s.rd) }, [])
  | .read old _ => some ({ s with pc := upd s.pc t (.store (combine old (getTickCount s)) s.now) }, [])
  | .store v rd => some ({ s with ticks := v, rd := rd, st := s.now, warm := s.warm || s.installed, pc := upd s.pc t .out }, [.returned t v s.now])

def step (c : Cfg) (s : State) : Label → Option (State × List Event)
  | .advance k => if c.timed = true → timely c s k then some ({ s with now := s.now + k }, []) else none
  | .call t => if t < c.n + 1 ∧ s.pc t = .out ∧ (t = 0 → s.installed = true) then some (call s t, [.began t s.now]) else none
  | .go t => if t < c.n + 1 then go s t else none
  -- 130-137
  | .regOk t => if t < c.n + 1 ∧ s.pc t = .register then some ({ s with installed := true, lastB := s.now, pc := upd s.pc t .load }, [.registered t]) else none
  -- 141
  | .regFail t => if t < c.n + 1 ∧ s.pc t = .register then some ({ s with busy := false, pc := upd s.pc t .load }, []) else none

end Verif.TickCount
