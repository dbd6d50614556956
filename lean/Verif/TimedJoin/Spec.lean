import Verif.Core.Run
/-!
# Timed joins and their deadlines: specification

One thread calls the joins of a `thread` object; the thread it stands for runs, comes to the end of its function (and of what the library does after it: at_thread_exit functions, thread specific data),
and some time later has ended altogether: after the destructors of its `thread_local` variables. Two clocks run: the steady one, and the user's, which may be set to anything at any time.

`strict = true` is the contract: a call returns true or false, or is interrupted. `strict = false` is what is proved of the code: a call with extreme times may also fail otherwise.
-/

namespace Verif.TimedJoin

/-- In the range of 64 bits. -/
def fits (x : Int) : Bool := decide (-9223372036854775808 ≤ x ∧ x ≤ 9223372036854775807)

inductive Sys where
  | posix
  | windows
deriving DecidableEq, Repr

inductive Call where
  /-- `try_join_until(t)`; `steady`: of the steady clock. With another clock also `timed_join(abs_time)`. -/
  | until_ (steady : Bool) (t : Int)
  /-- `try_join_for(d)`, `timed_join(relative_time)` -/
  | for_ (d : Int)
  /-- `join()`: returns nothing, here `val true` -/
  | join
deriving DecidableEq, Repr

inductive Ret where
  | val (b : Bool)
  /-- `thread_interrupted` is thrown -/
  | interrupted
  /-- `condition_error` is thrown -/
  | threw
  /-- undefined behaviour: signed overflow -/
  | overflow
deriving DecidableEq, Repr

inductive Event where
  | called (c : Call)
  | returned (r : Ret)
  | clock (now user : Int)
  /-- the function of the thread has returned -/
  | ended
  /-- the thread has ended altogether -/
  | gone
  /-- `interrupt()` was called for the thread that joins -/
  | asked
deriving DecidableEq, Repr

structure Spec where
  now : Int
  user : Int
  ended : Bool
  gone : Bool
  asked : Bool
  call : Option Call
  /-- the thread had ended when the call began (POSIX: its function) -/
  before : Bool
  /-- reading of the steady clock when the call began -/
  began : Int
  /-- the largest and the smallest reading of the user's clock during the call -/
  maxUser : Int
  minUser : Int
deriving DecidableEq, Repr

def specInit (now user : Int) : Spec := { now, user, ended := false, gone := false, asked := false, call := none, before := false, began := now, maxUser := user, minUser := user }

/-- The time of the call has come at some moment since it began. -/
def Spec.due (q : Spec) : Call → Bool
  | .until_ true t => decide (t ≤ q.now)
  | .until_ false t => decide (t ≤ q.maxUser)
  | .for_ d => decide (q.began + d ≤ q.now)
  | .join => false

/-- 100 ms -/
def interval : Int := 100000000

/-- The times of the call, combined with the readings of the clocks, are negative or do not fit. -/
def Spec.extreme (c : Sys) (q : Spec) : Call → Bool
  | .until_ true t => if c = .windows then !fits (t - q.began) || !fits (t - q.now) else decide (t < 0)
  | .until_ false t => !fits (t - q.maxUser) || !fits (t - q.minUser) || decide (q.began + (t - q.maxUser) < 0) || !fits (q.now + interval)
  | .for_ d => !fits (q.now + d) || !fits (q.began + d) || decide (q.began + d < 0) || (c == .windows && !fits (q.began + d - q.now))
  | .join => false

def check (b : Bool) (q : Spec) : Verdict Spec := if b then .ok q else .illegal

def next (strict : Bool) (c : Sys) (q : Spec) : Event → Verdict Spec
  | .called a => check q.call.isNone { q with call := some a, before := if c = .posix then q.ended else q.gone, began := q.now, maxUser := q.user, minUser := q.user }
  | .clock n u => .ok { q with now := n, user := u, maxUser := max q.maxUser u, minUser := min q.minUser u }
  | .ended => .ok { q with ended := true }
  | .gone => check q.ended { q with gone := true }
  | .asked => .ok { q with asked := true }
  | .returned r =>
    match q.call with
    | none => .illegal
    | some a =>
      match r with
      | .val true => check q.gone { q with call := none }
      | .val false => check (q.due a && !q.before) { q with call := none }
      | .interrupted => check q.asked { q with call := none, asked := false }
      | _ => if !strict && q.extreme c a then .undefined else .illegal

end Verif.TimedJoin
