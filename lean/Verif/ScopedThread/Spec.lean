import Verif.ScopedThread.Model
/-!
# What a `scoped_thread` promises
-/

namespace Verif.ScopedThread

/-- Which thread each object is responsible for. -/
structure Own where
  held : Nat → Option Nat := fun _ => none
  n : Nat := 0

/-- An object is never destroyed, and never assigned to, while it is still responsible for a thread; threads move with the objects. -/
def next (σ : Own) : Event → Verdict Own
  | .made o t => if t = σ.n then .ok { held := upd σ.held o (some t), n := σ.n + 1 } else .illegal
  | .madeEmpty o => .ok { σ with held := upd σ.held o none }
  | .moved d s => if σ.held d = none then .ok { σ with held := upd (upd σ.held d (σ.held s)) s none } else .illegal
  | .assigned d s => if σ.held d = none then .ok { σ with held := upd (upd σ.held d (σ.held s)) s none } else .illegal
  | .swapped a b => .ok { σ with held := upd (upd σ.held a (σ.held b)) b (σ.held a) }
  | .destroyed o => if σ.held o = none then .ok σ else .illegal
  | .interrupted o t => if σ.held o = some t then .ok σ else .illegal
  | .joined o t => if σ.held o = some t then .ok { σ with held := upd σ.held o none } else .illegal
  | .detached o t => if σ.held o = some t then .ok { σ with held := upd σ.held o none } else .illegal
  | .joinThrew o t => if σ.held o = some t then .ok σ else .illegal
  | .notJoinable o => if σ.held o = none then .ok σ else .illegal
  | .terminated o => if σ.held o = none then .illegal else .ok σ

/-- What is done to thread `t`. -/
def Event.about (t : Nat) : Event → Bool
  | .interrupted _ u => u == t
  | .joined _ u => u == t
  | .detached _ u => u == t
  | .joinThrew _ u => u == t
  | _ => false

/-- Thread `t` is joined or detached. -/
def Event.releases (t : Nat) : Event → Bool
  | .joined _ u => u == t
  | .detached _ u => u == t
  | _ => false

/-- The action, applied once to thread `t` by object `o`. -/
def acts : Fn → Nat → Nat → List Event
  | .detach, o, t => [.detached o t]
  | .detachIf, o, t => [.detached o t]
  | .joinIf, o, t => [.joined o t]
  | .interruptJoinIf, o, t => [.interrupted o t, .joined o t]

/-- The client leaves the threads to the objects, and no join throws. -/
def Label.plain : Label → Bool
  | .assign _ _ j => j == .ok
  | .destroy _ j => j == .ok
  | .join _ _ => false
  | .detach _ => false
  | .interrupt _ => false
  | _ => true

end Verif.ScopedThread
