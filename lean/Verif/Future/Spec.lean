import Verif.Future.Api
/-!
# What promises and futures promise

The specification knows *channels*: a channel connects the promise objects and future objects that share a state. The contract has two strengths.

`strict = true` is the contract of C32 and C33: the first outcome given to a channel, by whatever variant, decides it, and every later attempt throws
`promise_already_satisfied`; a promise that is destroyed or assigned to without an outcome breaks its channel; results given with `at_thread_exit` become
available when the thread exits; an interrupted `get` leaves the future usable; `get_or` never throws the stored exception.

`strict = false` is what the code keeps for every history: immediate attempts after the channel is ready are rejected and change nothing; as soon as a second
attempt is made on a channel that holds a not yet published outcome, or a deferred attempt on a channel that holds an exception, the channel is *spoiled* and
nothing is said about it any more (everything is still said about all the others); assigning to a promise leaves its channel without an outcome for ever.
-/

namespace Verif.Future

/-- A channel. `out`: its outcome; `ready`: the outcome is published; `used`: a `future` referring to it was invalidated by `get`; `taken`: the value was moved
out by a `future`; `spoiled`: see above. -/
structure Chan where
  out : Option Out := none
  ready : Bool := false
  spoiled : Bool := false
  used : Bool := false
  taken : Bool := false
deriving DecidableEq, Repr

structure SState where
  chans : List Chan
  proms : List (Option Prom)
  futs : List (Option Fut)
  /-- the call each thread is blocked in, with its channel -/
  pend : List (Option (Wait × Nat))
  /-- the channels each thread has to publish when it exits -/
  exits : List (List Nat)
  /-- which threads were started by the library -/
  libs : List Bool
  /-- the threads whose function has returned -/
  ended : List Bool
deriving DecidableEq, Repr

def sInit (libs : List Bool) : SState := ⟨[], [], [], libs.map fun _ => none, libs.map fun _ => [], libs, libs.map fun _ => false⟩

def Out.isValue : Out → Bool
  | .value _ => true
  | .exc _ => false

/-- An attempt in mode `m` to give outcome `o` to channel `c`, which returned `r`. `none`: not allowed. -/
def judgeSet (strict : Bool) (c : Chan) (m : Mode) (o : Out) (r : Res) : Option Chan :=
  if c.spoiled then some c
  else match c.out with
    | none => if r = .ok then some { c with out := some o, ready := m = .now } else none
    | some o' =>
      if strict || (c.ready && (m = .now || o'.isValue)) then
        if r = .satisfied then some c else none
      else some { c with spoiled := true }

/-- A blocking call `w` on channel `c` returned `r`. -/
def judgeWait (cfg : Cfg) (strict : Bool) (c : Chan) (w : Wait) (r : Res) : Option Chan :=
  match w with
  | .get uniq =>
      if c.spoiled then some c
      else if ¬ c.ready then none
      else match c.out with
        | some (.exc e) => if r = .threw e then some c else none
        | some (.value v) =>
          if r = (if c.taken then .movedFrom else .value v) then some { c with taken := c.taken || uniq } else none
        | none => none
  | .getOr uniq d =>
      let c' := { c with used := c.used || (uniq && cfg.invAfter) }
      if c.spoiled then some c'
      else if ¬ c.ready then none
      else match c.out with
        | some (.exc e) => if r = (if uniq || strict then .value d else .threw e) then some c' else none
        | some (.value v) =>
          if r = (if c.taken then .movedFrom else .value v) then some { c' with taken := c.taken || uniq } else none
        | none => none
  | .wait => if c.spoiled || (c.ready && r = .ok) then some c else none
  | .timed => if c.spoiled || r = .bool c.ready then some c else none

def SState.setChan (σ : SState) (i : Nat) (c : Chan) : SState := { σ with chans := σ.chans.set i c }

/-- A promise without a channel gets a new one, if `mk`. -/
def SState.ensure (σ : SState) (mk : Bool) (p : Nat) (x : Prom) : SState × Option Nat :=
  match x.st with
  | some i => (σ, some i)
  | none =>
    if mk then
      ({ σ with chans := σ.chans ++ [{}], proms := σ.proms.set p (some { x with st := some σ.chans.length }) }, some σ.chans.length)
    else (σ, none)

/-- A channel whose promise goes away: without an outcome it is broken. -/
def Chan.abandon (c : Chan) : Chan :=
  if c.spoiled || c.out.isSome then c else { c with out := some (.exc .broken), ready := true }

/-- A channel whose deferred outcome is published; to publish nothing is a mistake of the client. -/
def Chan.publish (c : Chan) : Chan :=
  if c.out.isSome then { c with ready := true } else { c with spoiled := true }

def ofOption {α : Type} : Option α → Verdict α
  | some x => .ok x
  | none => .illegal

/-- The blocking call an operation makes, with its future object: `none` if it is not a blocking call. -/
def Op.waits : Op → Option (Nat × (Fut → Wait))
  | .getF f => some (f, fun x => .get (!x.shared))
  | .getOrF f sh d => some (f, fun _ => .getOr (!sh) d)
  | .waitF f => some (f, fun _ => .wait)
  | .timedF f => some (f, fun _ => .timed)
  | _ => none

/-- `get` and `get_or` of a `future` need a future that is still valid. -/
def Wait.uniq : Wait → Bool
  | .get u => u
  | .getOr u _ => u
  | _ => false

/-- `get` of a `future` uses it up. -/
def Wait.start (cfg : Cfg) (w : Wait) (c : Chan) : Chan :=
  match w with
  | .get true => { c with used := c.used || cfg.invAfter }
  | _ => c

def nextRet (cfg : Cfg) (strict : Bool) (σ : SState) (t : Nat) (op : Op) (r : Res) : Verdict SState :=
  match op with
  | .pnew =>
      if cfg.lazy then .ok { σ with proms := σ.proms ++ [some ⟨none, false⟩] }
      else .ok { σ with chans := σ.chans ++ [{}], proms := σ.proms ++ [some ⟨some σ.chans.length, false⟩] }
  | .pdestroy p => ofOption <| σ.proms[p]?.join.bind fun x =>
      match x.st with
      | none => some { σ with proms := σ.proms.set p none }
      | some i => σ.chans[i]?.map fun c => { σ.setChan i c.abandon with proms := σ.proms.set p none }
  | .pmove p => ofOption <| σ.proms[p]?.join.map fun x => { σ with proms := σ.proms.set p (some ⟨none, false⟩) ++ [some x] }
  | .passign p q => ofOption <| σ.proms[p]?.join.bind fun x => σ.proms[q]?.join.bind fun y =>
      let σ' := { σ with proms := (σ.proms.set p (some y)).set q (some ⟨none, false⟩) }
      match x.st with
      | some i => if strict then σ.chans[i]?.map fun c => σ'.setChan i c.abandon else some σ'
      | none => some σ'
  | .pswap p q => ofOption <| σ.proms[p]?.join.bind fun x => σ.proms[q]?.join.map fun y =>
      { σ with proms := (σ.proms.set p (some y)).set q (some x) }
  | .getFuture p => ofOption <| σ.proms[p]?.join.bind fun x =>
      let a := σ.ensure cfg.lazy p x
      match a.2 with
      | none => if r = .noState then some a.1 else none
      | some i =>
        if x.got then (if r = .retrieved then some a.1 else none)
        else if r = .ok then some { a.1 with proms := a.1.proms.set p (some ⟨some i, true⟩), futs := a.1.futs ++ [some ⟨some i, false⟩] }
        else none
  | .set p m o =>
      match σ.proms[p]?.join with
      | none => .illegal
      | some x =>
        let a := σ.ensure (cfg.lazy && (m != .atExit || strict)) p x
        match a.2 with
        | none => if m = .now then (if r = .crash then .undefined else .illegal) else (if r = .noState then .ok a.1 else .illegal)
        | some i => ofOption <| a.1.chans[i]?.bind fun c => (judgeSet strict c m o r).map fun c' =>
            let σ' := a.1.setChan i c'
            if m = .atExit ∧ r = .ok ∧ (strict ∨ σ'.libs[t]? = some true) then
              { σ' with exits := σ'.exits.modify t (· ++ [i]) }
            else σ'
  | .notify p => ofOption <| σ.proms[p]?.join.bind fun x =>
      match x.st with
      | none => if r = .noState then some σ else none
      | some i => if r = .ok then σ.chans[i]?.map fun c => σ.setChan i c.publish else none
  | .fconv f sh => ofOption <| σ.futs[f]?.join.map fun x => { σ with futs := σ.futs.set f (some ⟨none, x.shared⟩) ++ [some ⟨x.st, sh⟩] }
  | .fassign f g => ofOption <| σ.futs[f]?.join.bind fun x => σ.futs[g]?.join.map fun y =>
      { σ with futs := (σ.futs.set f (some ⟨y.st, x.shared⟩)).set g (some ⟨none, y.shared⟩) }
  | .fcopy f => ofOption <| σ.futs[f]?.join.map fun x => { σ with futs := σ.futs ++ [some x] }
  | .fdestroy f => ofOption <| σ.futs[f]?.join.map fun _ => { σ with futs := σ.futs.set f none }
  | .isReady f => ofOption <| σ.futs[f]?.join.bind fun x =>
      match x.st with
      | none => if r = .bool false then some σ else none
      | some i => σ.chans[i]?.bind fun c => if c.spoiled || r = .bool c.ready then some σ else none
  | .hasValue f => ofOption <| σ.futs[f]?.join.bind fun x =>
      match x.st with
      | none => if r = .bool false then some σ else none
      | some i => σ.chans[i]?.bind fun c => if c.spoiled || r = .bool (c.ready && c.out.any (·.isValue)) then some σ else none
  | .hasException f => ofOption <| σ.futs[f]?.join.bind fun x =>
      match x.st with
      | none => if r = .bool false then some σ else none
      | some i => σ.chans[i]?.bind fun c => if c.spoiled || r = .bool (c.ready && c.out.any (! ·.isValue)) then some σ else none
  | .valid f => ofOption <| σ.futs[f]?.join.bind fun x =>
      match x.st with
      | none => if r = .bool false then some σ else none
      | some i => σ.chans[i]?.bind fun c => if r = .bool (!c.used) then some σ else none
  | .exit =>
      if strict then
        .ok { σ with ended := σ.ended.set t true, chans := σ.chans.mapIdx fun i c => if i ∈ (σ.exits[t]?.getD []) then c.publish else c }
      else .ok { σ with ended := σ.ended.set t true }
  | op => ofOption <| op.waits.bind fun fw => σ.futs[fw.1]?.join.bind fun x =>
      match x.st with
      | none => if r = .uninit then some σ else none
      | some i => σ.chans[i]?.bind fun c =>
          let w := fw.2 x
          if w.uniq && c.used then (if r = .uninit then some σ else none)
          else (judgeWait cfg strict (w.start cfg c) w r).map fun c' => σ.setChan i c'

def next (cfg : Cfg) (strict : Bool) (σ : SState) : E → Verdict SState
  | .ret t op r => nextRet cfg strict σ t op r
  -- a call blocks only if its channel is not ready
  | .enter t op => ofOption <| op.waits.bind fun fw => σ.futs[fw.1]?.join.bind fun x => x.st.bind fun i => σ.chans[i]?.bind fun c =>
      let w := fw.2 x
      if (w.uniq && c.used) || (c.ready && !c.spoiled) then none
      else some { σ.setChan i (w.start cfg c) with pend := σ.pend.set t (some (w, i)) }
  | .leave t r => ofOption <| σ.pend[t]?.join.bind fun wi =>
      let σ' := { σ with pend := σ.pend.set t none }
      if r = .interrupted then
        some (if strict ∧ wi.1 = .get true then { σ' with chans := σ'.chans.modify wi.2 fun c => { c with used := false } } else σ')
      else σ.chans[wi.2]?.bind fun c => (judgeWait cfg strict c wi.1 r).map fun c' => σ'.setChan wi.2 c'
  | .released _ => .ok σ
  -- a result is published only after the end of the thread
  | .published t => ofOption <| match σ.exits[t]?, σ.ended[t]? with
      | some (i :: rest), some true => σ.chans[i]?.map fun c => { σ.setChan i c.publish with exits := σ.exits.set t rest }
      | _, _ => none

end Verif.Future
