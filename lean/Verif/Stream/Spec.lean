import Verif.Stream.Model
/-!
# What output through an `externally_locked_stream` promises

From the construction of a thread's outermost guard to its destruction only that thread writes, and what it writes are the texts of its arguments, in order; the
text of an argument may be interrupted only by nested expressions of the same thread, and ends early only if the insertion throws.
-/

namespace Verif.Stream

/-- The thread that has the stream, and for each of its guards, innermost first, what is still to be written of the current argument, if there is one. -/
abbrev Spec := Option (Nat × List (Option (List Char)))

def next : Spec → Event → Verdict Spec
  | none, .began t => .ok (some (t, [none]))
  | some (u, gs), .began t => if u = t then .ok (some (t, none :: gs)) else .illegal
  | some (u, none :: gs), .arg t text => if u = t then .ok (some (t, some text :: gs)) else .illegal
  | some (u, some (c :: cs) :: gs), .put t x => if u = t ∧ x = c then .ok (some (t, some cs :: gs)) else .illegal
  | some (u, some [] :: gs), .argDone t => if u = t then .ok (some (t, none :: gs)) else .illegal
  | some (u, some _ :: gs), .threw t => if u = t then .ok (some (t, none :: gs)) else .illegal
  | some (u, [none]), .ended t => if u = t then .ok none else .illegal
  | some (u, none :: gs), .ended t => if u = t then .ok (some (t, gs)) else .illegal
  | _, _ => .illegal

/-- Guards of a thread constructed and destroyed. -/
def begun (t : Nat) (es : List Event) : Nat := es.countP (· == .began t)
def gone (t : Nat) (es : List Event) : Nat := es.countP (· == .ended t)

/-- What has been written. -/
def written : List Event → List (Nat × Char)
  | [] => []
  | .put t c :: es => (t, c) :: written es
  | _ :: es => written es

end Verif.Stream
