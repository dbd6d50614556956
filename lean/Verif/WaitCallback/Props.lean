import Verif.WaitCallback.Inv
/-!
# Wait callbacks: the properties
-/

namespace Verif.WaitCallback

variable {n : Nat} {s : State} {t u p k : Nat} {kd : Kind} {fs : List Frame} {ls : List Label} {es : List Event}

/-- C64. Every history of promises with wait callbacks, with any number of threads and callbacks that do what they like, is one that the specification allows: a call of `get` or of a timed wait
calls the callback once at most, if the future was not ready when the call was made, and with the promise of the future; a timed wait does not give up without having called it; a call returns the
result, and only the result; what a callback throws leaves the call; a promise is satisfied once. Partial: the callback is bound to the address of the promise; moving the promise, or destroying it
while a call may be about to call the callback, is left out (`moved_promise`, `destroyed_promise`). -/
theorem conforms_partial (h : run (step n) init ls = some (s, es)) : Accepts (next n false) {} es :=
  simulation (R n) (fun _ _ _ _ _ hR hs => sim hR hs) R.init h

/-- C64. A callback is called without any mutex of a future: the thread that executes it holds none. -/
theorem callback_runs_unlocked (h : run (step n) init ls = some (s, es)) (hst : s.stk t = .inCb k kd :: fs) (k' : Nat) : s.mtx k' ≠ some t :=
  (reach_inv' h).not_held hst rfl k'

/-- C64. Two threads never are both between locking and unlocking the mutex of the same future. -/
theorem one_holder (h : run (step n) init ls = some (s, es)) (ht : held (s.stk t) = some k) (hu : held (s.stk u) = some k) : t = u := by
  have h1 := ((reach_inv' h).mtx k t).mpr ht
  have h2 := ((reach_inv' h).mtx k u).mpr hu
  rw [h1] at h2
  exact Option.some.inj h2

/-- The call for `k` is not executing its callback, and the callback has not thrown and is not about to be called. -/
def Frame.waits (k : Nat) (kd : Kind) : Frame → Bool
  | .enter k' kd' | .locked k' kd' | .relock k' kd' | .check k' kd' _ | .asleep k' kd' _ | .awake k' kd' _ => k' == k && kd' == kd
  | _ => false

/-- With the mutex and the result, a call returns. -/
theorem check_returns {to : Bool} {r : Res} (hi : Inv n s) (hub : s.ub = false) (hst : s.stk t = .check k kd to :: fs) (hr : s.res k = some r) :
    ∃ s', run (step n) s [.go t] = some (s', [.returned t k kd r]) := by
  have : step n s (.go t) = some ({ s with stk := upd s.stk t fs, mtx := upd s.mtx k none }, [.returned t k kd r]) := by
    rw [step_go hub (hi.lt hst)]
    simp only [go, hst, hr]
  exact ⟨_, run_step this run_nil⟩

theorem locked_returns {r : Res} (hi : Inv n s) (hub : s.ub = false) (hst : s.stk t = .locked k kd :: fs) (hr : s.res k = some r) :
    ∃ s', run (step n) s [.go t, .go t] = some (s', [.returned t k kd r]) := by
  have h1 : step n s (.go t) = some (goto s t (.check k kd false) fs, []) := by
    rw [step_go hub (hi.lt hst)]
    simp only [go, hst, hr]
    cases s.cb k <;> rfl
  obtain ⟨s', h2⟩ := check_returns (to := false) (fs := fs) (t := t) (k := k) (kd := kd) (r := r) (hi.step h1) hub (by simp [goto, upd_apply]) hr
  exact ⟨s', run_step h1 h2⟩

theorem waits_returns {r : Res} {f : Frame} (hi : Inv n s) (hub : s.ub = false) (hst : s.stk t = f :: fs) (hf : f.waits k kd = true) (hr : s.res k = some r) :
    ∃ ls s' es, run (step n) s ls = some (s', es) ∧ Goes ls ∧ .returned t k kd r ∈ es := by
  -- after the lock has been acquired
  have lk : ∀ (s₀ : State) (g : Frame), Inv n s₀ → s₀.ub = false → s₀.res k = some r → s₀.stk t = g :: fs → g.holds = none → (∀ s₁ : State, s₁.mtx k = none → s₁.stk t = g :: fs →
      go s₁ t = lockAnd s₁ t k (.locked k kd) fs ∨ ∃ to, go s₁ t = lockAnd s₁ t k (.check k kd to) fs) → ∃ ls s' es, run (step n) s₀ ls = some (s', es) ∧ Goes ls ∧ .returned t k kd r ∈ es := by
    intro s₀ g hi hub hr hst hg hgo
    obtain ⟨ls, s₁, es₁, hrun, hgs, hi₁, hm, hr₁, -, hub₁, hstk⟩ := release hi hub k
    have hst₁ : s₁.stk t = g :: fs := by rw [hstk t (hi.not_held hst hg k), hst]
    have hres₁ : s₁.res k = some r := by rw [hr₁]; exact hr
    rcases hgo s₁ hm hst₁ with he | ⟨to, he⟩
    · have h1 : step n s₁ (.go t) = some ({ goto s₁ t (.locked k kd) fs with mtx := upd s₁.mtx k (some t) }, []) := by
        rw [step_go hub₁ (hi₁.lt hst₁), he]; simp only [lockAnd, hm, ↓reduceIte]
      obtain ⟨s', h2⟩ := locked_returns (fs := fs) (t := t) (k := k) (kd := kd) (r := r) (hi₁.step h1) hub₁ (by simp [goto, upd_apply]) hres₁
      refine ⟨_, _, _, run_append hrun (run_step h1 h2), fun l hl => ?_, by simp⟩
      rcases List.mem_append.mp hl with hl | hl
      · exact hgs l hl
      · simp at hl; exact ⟨t, hl⟩
    · have h1 : step n s₁ (.go t) = some ({ goto s₁ t (.check k kd to) fs with mtx := upd s₁.mtx k (some t) }, []) := by
        rw [step_go hub₁ (hi₁.lt hst₁), he]; simp only [lockAnd, hm, ↓reduceIte]
      obtain ⟨s', h2⟩ := check_returns (to := to) (fs := fs) (t := t) (k := k) (kd := kd) (r := r) (hi₁.step h1) hub₁ (by simp [goto, upd_apply]) hres₁
      refine ⟨_, _, _, run_append hrun (run_step h1 h2), fun l hl => ?_, by simp⟩
      rcases List.mem_append.mp hl with hl | hl
      · exact hgs l hl
      · simp at hl; exact ⟨t, hl⟩
  cases f <;> simp [Frame.waits] at hf <;> obtain ⟨rfl, rfl⟩ := hf
  case enter => exact lk s _ hi hub hr hst rfl fun s₁ _ h => .inl (by simp only [go, h])
  case locked =>
    obtain ⟨s', h⟩ := locked_returns hi hub hst hr
    exact ⟨_, s', _, h, by simp [Goes], by simp⟩
  case relock => exact lk s _ hi hub hr hst rfl fun s₁ _ h => .inr ⟨false, by simp only [go, h]⟩
  case check =>
    obtain ⟨s', h⟩ := check_returns hi hub hst hr
    exact ⟨_, s', _, h, by simp [Goes], by simp⟩
  case awake _ _ to => exact lk s _ hi hub hr hst rfl fun s₁ _ h => .inr ⟨to, by simp only [go, h]⟩
  case asleep k kd ntf =>
    have hn : ntf = true := by
      cases ntf with
      | true => rfl
      | false =>
        have := hi.slp t k kd (by rw [hst]; exact List.mem_cons_self)
        rw [hr] at this; cases this
    subst hn
    have h1 : step n s (.go t) = some (goto s t (.awake k kd false) fs, []) := by
      rw [step_go hub (hi.lt hst)]
      simp only [go, hst, ↓reduceIte]
    obtain ⟨ls, s', es, h2, h3, h4⟩ := lk _ (.awake k kd false) (hi.step h1) hub hr (by simp [goto, upd_apply]) rfl fun s₁ _ h => .inr ⟨false, by simp only [go, h]⟩
    refine ⟨_, s', _, run_step h1 h2, fun l hl => ?_, by simpa using h4⟩
    rcases List.mem_cons.mp hl with rfl | hl
    · exact ⟨t, rfl⟩
    · exact h3 l hl

/-- C64. Once the future is ready, a call returns the result after finitely many steps of the library, whoever executes a callback meanwhile: nobody waits for another thread's callback, and no
notification gets lost between the callback and the wait. -/
theorem ready_call_returns {r : Res} {f : Frame} (h : run (step n) init ls = some (s, es)) (hub : s.ub = false) (hst : s.stk t = f :: fs) (hf : f.waits k kd = true) (hr : s.res k = some r) :
    ∃ ls' s' es', run (step n) s ls' = some (s', es') ∧ Goes ls' ∧ .returned t k kd r ∈ es' :=
  waits_returns (reach_inv' h) hub hst hf hr

/-- C64. Whatever calls and callbacks are in progress, a thread with a promise that is not satisfied can satisfy it, after finitely many steps of the library. -/
theorem promise_can_be_set (r : Res) (h : run (step n) init ls = some (s, es)) (hub : s.ub = false) (hu : u < n) (hf : free s u = true) (ho : s.obj p = some (some k)) (hr : s.res k = none) :
    ∃ ls' s' es', run (step n) s (ls' ++ [.set u p r]) = some (s', es' ++ [.wasSet u p r]) ∧ Goes ls' ∧ s'.res k = some r := by
  have hi := reach_inv' h
  have hnh : s.mtx k ≠ some u := by
    intro hk
    have := (hi.mtx k u).mp hk
    unfold free at hf
    cases hst : s.stk u with
    | nil => rw [hst] at this; cases this
    | cons f fs => rw [hst] at this; simp only [hst] at hf; cases f <;> simp [held, Frame.holds] at this hf
  obtain ⟨ls', s₁, es₁, hrun, hgs, hi₁, hm, hr₁, ho₁, hub₁, hstk⟩ := release hi hub k
  refine ⟨ls', finish s₁ k r, es₁, run_append hrun (run_step (e := [Event.wasSet u p r]) ?_ run_nil), hgs, by simp [finish, upd_apply]⟩
  have hf₁ : free s₁ u = true := by unfold free at hf ⊢; rw [hstk u hnh]; exact hf
  unfold step
  rw [if_pos ⟨hub₁, hu⟩]
  simp only [act, hf₁, ↓reduceIte, set, ho₁, ho, hm, hr₁, hr]

/-- C64. The lazy future: a callback that satisfies the promise it is called with and returns makes its own call return that result, without any other thread doing anything but leaving the library's
critical sections. -/
theorem lazy_get (r : Res) (h : run (step n) init ls = some (s, es)) (hub : s.ub = false) (hst : s.stk t = .inCb k kd :: fs) (ho : s.obj p = some (some k)) (hr : s.res k = none) :
    ∃ ls₁ ls₂ s' es₁ es₂, run (step n) s (ls₁ ++ [.set t p r, .cbEnd t] ++ ls₂) = some (s', es₁ ++ [.wasSet t p r, .cbEnded t k] ++ es₂) ∧ Goes ls₁ ∧ Goes ls₂ ∧ .returned t k kd r ∈ es₂ := by
  have hi := reach_inv' h
  have ht := hi.lt hst
  have hnh := hi.not_held hst rfl k
  obtain ⟨ls₁, s₁, es₁, hrun, hgs, hi₁, hm, hr₁, ho₁, hub₁, hstk⟩ := release hi hub k
  have hst₁ : s₁.stk t = .inCb k kd :: fs := by rw [hstk t hnh, hst]
  have hset : step n s₁ (.set t p r) = some (finish s₁ k r, [.wasSet t p r]) := by
    unfold step
    rw [if_pos ⟨hub₁, ht⟩]
    simp only [act, free, hst₁, ↓reduceIte, set, ho₁, ho, hm, hr₁, hr]
  have hst₂ : (finish s₁ k r).stk t = .inCb k kd :: fs.map (Frame.notify k) := by simp [finish, hst₁, Frame.notify]
  have hend : step n (finish s₁ k r) (.cbEnd t) = some (goto (finish s₁ k r) t (.relock k kd) (fs.map (Frame.notify k)), [.cbEnded t k]) := by
    unfold step
    rw [if_pos ⟨hub₁, ht⟩]
    simp only [act, hst₂]
  obtain ⟨ls₂, s', es₂, h2, h3, h4⟩ := waits_returns (f := .relock k kd) (fs := fs.map (Frame.notify k)) (t := t) (k := k) (kd := kd) (r := r) ((hi₁.step hset).step hend) hub₁ (by simp [goto, upd_apply])
    (by simp [Frame.waits]) (by simp [goto, finish, upd_apply])
  refine ⟨ls₁, ls₂, s', es₁, es₂, ?_, hgs, h3, h4⟩
  have := run_append hrun (run_step hset (run_step hend h2))
  simpa using this

/-! ## Concrete histories -/

/-- A lazy future: thread 1 waits, its callback satisfies the promise. Thread 0 made it. -/
def lazyProg : List Label := [.create 0 0, .setCb 0 0, .call 1 0 .get, .go 1, .go 1, .go 1, .set 1 0 (.val 7), .cbEnd 1, .go 1, .go 1]

def lazyEvents : List Event := [.created 0 0, .callbackSet 0 0, .called 1 0 .get, .cbBegan 1 0 0, .wasSet 1 0 (.val 7), .cbEnded 1 0, .returned 1 0 .get (.val 7)]

example : (run (step 2) init lazyProg).map (·.2) = some lazyEvents := by decide +kernel

example : ClientOk (next 2 false) {} lazyEvents := by decide +kernel

/-- In the callback: `lazy_get`, `callback_runs_unlocked` and `promise_can_be_set` apply. -/
example : (run (step 2) init (lazyProg.take 6)).map (fun x => (x.1.stk 1, x.1.obj 0, x.1.res 0, x.1.ub, free x.1 1)) = some ([.inCb 0 .get], some (some 0), none, false, true) := by decide +kernel

/-- A waiter whose callback did nothing sleeps; another thread satisfies the promise; `ready_call_returns` applies. -/
example : (run (step 2) init [.create 0 0, .setCb 0 0, .call 1 0 .get, .go 1, .go 1, .go 1, .cbEnd 1, .go 1, .go 1, .set 0 0 (.val 7)]).map (fun x => (x.1.stk 1, x.1.res 0, x.1.ub)) =
    some ([.asleep 0 .get true], some (.val 7), false) := by decide +kernel

/-- Two threads in front of the same mutex: `one_holder`. -/
example : (run (step 2) init [.create 0 0, .call 0 0 .get, .call 1 0 .timed, .go 0]).map (fun x => (held (x.1.stk 0), held (x.1.stk 1), (step 2 x.1 (.go 1)).isSome)) = some (some 0, none, false) := by decide +kernel

/-- A timed wait calls the callback, then gives up. -/
example : (run (step 1) init [.create 0 0, .setCb 0 0, .call 0 0 .timed, .go 0, .go 0, .go 0, .cbEnd 0, .go 0, .go 0, .timeout 0, .go 0, .go 0]).map (·.2) =
    some [.created 0 0, .callbackSet 0 0, .called 0 0 .timed, .cbBegan 0 0 0, .cbEnded 0 0, .timedOut 0 0] := by decide +kernel

/-- A callback waits for its own future: the call within calls the callback again. -/
example : (run (step 1) init [.create 0 0, .setCb 0 0, .call 0 0 .get, .go 0, .go 0, .go 0, .call 0 0 .get, .go 0, .go 0, .go 0]).map (·.2) =
    some [.created 0 0, .callbackSet 0 0, .called 0 0 .get, .cbBegan 0 0 0, .called 0 0 .get, .cbBegan 0 0 0] := by decide +kernel

/-! ## Where the code falls short -/

/-- C64. The callback is bound to the address the promise had when the callback was set: after the promise has been moved, the callback is called with the object that was moved from, which has no
future. -/
theorem moved_promise : ∃ ls s es, run (step 1) init ls = some (s, es) ∧ s.ub = false ∧ .cbBegan 0 0 0 ∈ es ∧ s.obj 0 = some none ∧ s.obj 1 = some (some 0) ∧ ¬ Accepts (next 1 true) {} es := by
  refine ⟨[.create 0 0, .setCb 0 0, .move 0 0 1, .call 0 0 .get, .go 0, .go 0, .go 0], _, _, rfl, rfl, ?_, rfl, rfl, ?_⟩ <;> decide +kernel

/-- C64. The callback is called after the mutex has been unlocked, and nothing keeps the promise: a thread that destroys the promise meanwhile makes the waiting thread call the callback with an
object that has been destroyed. -/
theorem destroyed_promise : ∃ ls s es, run (step 2) init ls = some (s, es) ∧ s.ub = false ∧ .cbBegan 1 0 0 ∈ es ∧ s.obj 0 = none ∧ ¬ Accepts (next 2 true) {} es := by
  refine ⟨[.create 0 0, .setCb 0 0, .call 1 0 .get, .go 1, .go 1, .destroy 0 0, .go 1], _, _, rfl, rfl, ?_, rfl, ?_⟩ <;> decide +kernel

/-- C64. Two threads that wait at the same time both call the callback. With a callback that satisfies the promise the second one fails with `promise_already_satisfied`, and if it does not catch
that, `get` throws although the value is there. -/
theorem second_waiter : ∃ ls s es, run (step 2) init ls = some (s, es) ∧ s.ub = false ∧ s.res 0 = some (.val 7) ∧ Accepts (next 2 true) {} es ∧ .returned 0 0 .get (.val 7) ∈ es ∧ .satisfied 1 0 ∈ es ∧ .threw 1 0 ∈ es := by
  refine ⟨[.create 0 0, .setCb 0 0, .call 0 0 .get, .call 1 0 .get, .go 0, .go 0, .go 1, .go 1, .go 0, .go 1, .set 0 0 (.val 7), .cbEnd 0, .go 0, .go 0, .set 1 0 (.val 7), .cbThrow 1, .go 1], _, _, rfl, rfl, rfl, ?_, ?_, ?_, ?_⟩ <;> decide +kernel

/-! ## What the specification refuses -/

/-- A callback for a future that was ready -/
example : ¬ Accepts (next 1 false) {} [.created 0 0, .callbackSet 0 0, .wasSet 0 0 (.val 1), .called 0 0 .get, .cbBegan 0 0 0] := by decide +kernel
/-- twice in one call -/
example : ¬ Accepts (next 1 false) {} [.created 0 0, .callbackSet 0 0, .called 0 0 .get, .cbBegan 0 0 0, .cbEnded 0 0, .cbBegan 0 0 0] := by decide +kernel
/-- another promise's callback -/
example : ¬ Accepts (next 1 false) {} [.created 0 0, .created 0 1, .callbackSet 0 0, .callbackSet 0 1, .called 0 0 .get, .cbBegan 0 0 1] := by decide +kernel
/-- giving up without the callback -/
example : ¬ Accepts (next 1 false) {} [.created 0 0, .callbackSet 0 0, .called 0 0 .timed, .timedOut 0 0] := by decide +kernel
/-- another result -/
example : ¬ Accepts (next 1 false) {} [.created 0 0, .called 0 0 .get, .wasSet 0 0 (.val 1), .returned 0 0 .get (.val 2)] := by decide +kernel
/-- giving up although the future is ready -/
example : ¬ Accepts (next 1 false) {} [.created 0 0, .called 0 0 .timed, .wasSet 0 0 (.val 1), .timedOut 0 0] := by decide +kernel
/-- swallowing what the callback throws -/
example : ¬ Accepts (next 1 false) {} [.created 0 0, .callbackSet 0 0, .called 0 0 .get, .cbBegan 0 0 0, .wasSet 0 0 (.val 1), .cbThrew 0 0, .returned 0 0 .get (.val 1)] := by decide +kernel

end Verif.WaitCallback
