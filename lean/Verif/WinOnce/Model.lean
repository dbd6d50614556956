import Verif.Once.Spec
import Verif.Core.Threads
/-!
# Model of `boost::call_once` on Windows

Models `/repo/include/boost/thread/win32/once.hpp` lines 53-66 and 164-316 (the overloads 317-1075 repeat the same loop).

One flag, any number of threads; other flags share nothing with it. Every access to `status` and `count`, and every system call on the event, is one step.

The event is a named kernel object: it exists as long as somebody has it open, opening it fails if it does not exist, and creating it opens it if it does.

Simplifications: interlocked accesses are sequentially consistent; the system calls do not fail; different flags have different event names; the function does not call `call_once` with the
flag it is called for; `count` does not overflow.
-/

namespace Verif.WinOnce

open Once (Event)

/-- `once_flag::status`: 0, `running_value` and `function_complete_flag_value` (170-173). -/
inductive Status where
  | fresh
  | running
  | complete
deriving DecidableEq, Repr

inductive PC where
  /-- not in `call_once` -/
  | idle
  /-- line 236 -/
  | top
  /-- line 182 -/
  | try_
  /-- lines 185-189 -/
  | enterOpen
  /-- line 191 -/
  | enterReset
  /-- line 243 -/
  | inside
  /-- lines 199-203 -/
  | commitCount
  /-- line 204 -/
  | commitStatus
  /-- lines 205-206 -/
  | commitLook
  /-- line 208 -/
  | commitCreate
  /-- line 212 -/
  | commitSet
  /-- line 217 -/
  | rollStatus
  /-- lines 218-222 -/
  | rollOpen
  /-- line 224 -/
  | rollSet
  /-- lines 256-257 -/
  | count
  /-- lines 258-262 -/
  | check
  /-- line 265 -/
  | create
  /-- line 269 -/
  | wait
deriving DecidableEq, Repr

structure Thread where
  pc : PC
  /-- `ctx.event_handle` is set -/
  hnd : Bool
  /-- `ctx.counted` -/
  counted : Bool
deriving DecidableEq, Repr

structure State where
  status : Status
  count : Nat
  /-- number of open handles of the event -/
  refs : Nat
  /-- the event is signalled -/
  ev : Bool
  ts : List Thread
deriving DecidableEq, Repr

def init (n : Nat) : State := { status := .fresh, count := 0, refs := 0, ev := false, ts := List.replicate n ⟨.idle, false, false⟩ }

inductive Label where
  | call (t : Nat)
  /-- the next step of thread `t` inside the library -/
  | go (t : Nat)
  /-- the function ends: normally or with an exception -/
  | finish (t : Nat) (ok : Bool)
deriving DecidableEq, Repr

/-- `open_once_event`, 133-149. -/
def State.openEvent (s : State) (t : Nat) (x : Thread) (found missing : PC) : State :=
  if s.refs = 0 then { s with ts := s.ts.set t { x with pc := missing } }
  else { s with refs := s.refs + 1, ts := s.ts.set t { x with pc := found, hnd := true } }

/-- `create_once_event`, 151-162: a new event is not signalled. -/
def State.createEvent (s : State) (t : Nat) (x : Thread) (pc : PC) : State :=
  { s with refs := s.refs + 1, ev := if s.refs = 0 then false else s.ev, ts := s.ts.set t { x with pc, hnd := true } }

/-- `call_once` is left and its context destroyed, which closes the handle. -/
def State.leave (s : State) (t : Nat) (x : Thread) : State :=
  { s with refs := if x.hnd then s.refs - 1 else s.refs, ts := s.ts.set t ⟨.idle, false, false⟩ }

def State.at (s : State) (t : Nat) (x : Thread) (pc : PC) : State := { s with ts := s.ts.set t { x with pc } }

/-- `call_once`, 231-272. -/
def go (s : State) (t : Nat) (x : Thread) : Option (State × List Event) :=
  match x.pc with
  | .idle => none
  | .top => if s.status = .complete then some (s.leave t x, [.returned t 0]) else some (s.at t x .try_, [])        -- 236-237
  | .try_ =>                                                                                                     -- 182-183
    if s.status = .fresh then some ({ s.at t x .enterOpen with status := .running }, [])
    else if x.counted then some (s.at t x .wait, []) else some (s.at t x .count, [])                             -- 195, 254
  | .enterOpen =>                                                                                                -- 185-189
    if x.hnd then some (s.at t x .enterReset, [])
    else if s.refs = 0 then some (s.at t x .inside, [.started t 0]) else some (s.openEvent t x .enterReset .inside, [])
  | .enterReset => some ({ s.at t x .inside with ev := false }, [.started t 0])                                  -- 191-193, 243
  | .inside => none
  | .commitCount =>                                                                                              -- 199-203
    if x.counted then some (s.at t x .commitStatus, [])
    else some ({ s.at t { x with counted := true } .commitStatus with count := s.count + 1 }, [])
  | .commitStatus => some ({ s.at t x .commitLook with status := .complete }, [])                                -- 204
  | .commitLook =>                                                                                               -- 205-206
    if x.hnd then some (s.at t x .commitSet, [])
    else if 1 < s.count then some (s.at t x .commitCreate, []) else some (s.leave t x, [.returned t 0])
  | .commitCreate => some (s.createEvent t x .commitSet, [])                                                     -- 208
  | .commitSet => some ({ s.leave t x with ev := true }, [.returned t 0])                                        -- 212, 252
  | .rollStatus => some ({ s.at t x .rollOpen with status := .fresh }, [])                                       -- 217
  | .rollOpen =>                                                                                                 -- 218-222
    if x.hnd then some (s.at t x .rollSet, [])
    else if s.refs = 0 then some (s.leave t x, [.raised t 0]) else some (s.openEvent t x .rollSet .rollSet, [])
  | .rollSet => some ({ s.leave t x with ev := true }, [.raised t 0])                                            -- 224, 248
  | .count => some ({ s.at t { x with counted := true } .check with count := s.count + 1 }, [])                  -- 256-257
  | .check => if s.status = .complete then some (s.leave t x, [.returned t 0]) else some (s.at t x .create, [])  -- 258-262
  | .create => some (s.createEvent t x .top, [])                                                                 -- 263-267
  | .wait => if s.ev then some (s.at t x .top, []) else none                                                     -- 269

def step (s : State) : Label → Option (State × List Event)
  | .call t =>
    match s.ts[t]? with
    | some x => if x.pc = .idle then some (s.at t x .top, []) else none
    | none => none
  | .go t =>
    match s.ts[t]? with
    | some x => go s t x
    | none => none
  | .finish t ok =>                                                                                              -- 243-251
    match s.ts[t]? with
    | some x => if x.pc = .inside then some (s.at t x (if ok then .commitCount else .rollStatus), [.finished t 0 ok]) else none
    | none => none

end Verif.WinOnce
