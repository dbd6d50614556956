/-!
# What an unwrapped future stands for

Written without reference to the model. A history tells which promises and functions have delivered what, and which futures have been made by unwrapping which. `Resolves` says what a
future must come to: a future made by unwrapping `w` comes to what the future inside `w` comes to, to the exception of `w` if it has one, and to the exception `future_uninitialized` if
the future inside `w` is not valid. It is an inductive definition: a future that (through promises fulfilled with unwrapped futures) contains only itself comes to nothing.
-/

namespace Verif.Unwrap

/-- What a future holds when it is ready. -/
inductive Out where
  | num (v : Nat)
  /-- a future: a valid one with its number, or one without a state -/
  | fut (j : Option Nat)
  | exc (e : Nat)
  /-- the exception `future_uninitialized` -/
  | uninit
deriving DecidableEq, Repr

/-- Is it an exception? -/
def Out.isExc : Out → Bool
  | .exc _ => true
  | .uninit => true
  | _ => false

/-- Observable events. Futures are numbered in the order in which they are made. -/
inductive Event where
  /-- a promise and its future -/
  | promised (t i : Nat)
  /-- `async(launch::deferred, f)` -/
  | deferred (t i : Nat)
  /-- thread `t` has called `unwrap` on `w`; the result is `u` -/
  | unwraps (t u w : Nat)
  | unwrapRet (t u : Nat)
  /-- thread `t` has called `set_value` or `set_exception`, and `i` is ready -/
  | sets (t i : Nat) (o : Out)
  | setRet (t i : Nat)
  /-- `promise_already_satisfied` -/
  | satisfied (t i : Nat)
  /-- thread `t` has called `get` on `i` -/
  | gets (t i : Nat)
  | got (t i : Nat) (o : Out)
  /-- the function of the deferred future `i` has begun, has ended -/
  | began (t i : Nat)
  | ended (t i : Nat) (o : Out)
  /-- `is_ready` has returned `b` -/
  | polled (t i : Nat) (b : Bool)
deriving DecidableEq, Repr

/-- A promise or function has delivered `o` to future `i`. -/
def Delivered (es : List Event) (i : Nat) (o : Out) : Prop := ∃ t, .sets t i o ∈ es ∨ .ended t i o ∈ es

/-- Future `u` has been made by unwrapping `w`. -/
def Unwraps (es : List Event) (u w : Nat) : Prop := ∃ t, .unwraps t u w ∈ es

/-- In the history `es`, future `i` has come to `o`. -/
inductive Resolves (es : List Event) : Nat → Out → Prop where
  | delivered {i o} : Delivered es i o → Resolves es i o
  | failed {u w o} : Unwraps es u w → Resolves es w o → o.isExc = true → Resolves es u o
  | invalid {u w} : Unwraps es u w → Resolves es w (.fut none) → Resolves es u .uninit
  | inner {u w j o} : Unwraps es u w → Resolves es w (.fut (some j)) → Resolves es j o → Resolves es u o

theorem Resolves.append {es : List Event} {i : Nat} {o : Out} (h : Resolves es i o) (es' : List Event) : Resolves (es ++ es') i o := by
  induction h with
  | delivered h => obtain ⟨t, h⟩ := h; exact .delivered ⟨t, h.imp (by simp +contextual) (by simp +contextual)⟩
  | failed h _ he ih => obtain ⟨t, h⟩ := h; exact .failed ⟨t, by simp [h]⟩ ih he
  | invalid h _ ih => obtain ⟨t, h⟩ := h; exact .invalid ⟨t, by simp [h]⟩ ih
  | inner h _ _ ih1 ih2 => obtain ⟨t, h⟩ := h; exact .inner ⟨t, by simp [h]⟩ ih1 ih2

end Verif.Unwrap
