import Verif.Deferred.Sim
/-!
# C75: asking about a deferred future does not wait for its function

`Spec.lean` has the reading of the calls.
-/

namespace Verif.Deferred
set_option linter.unusedSimpArgs false

/-- The future follows the specification, for values, `void` and references alike: the function runs once, in a `get`; `get` returns what it came to; what threads are told about the
future is true. -/
theorem conforms {ref : Bool} {ls : List L} {s : S} {es : List E} (h : run step (init ref) ls = some (s, es)) : Accepts next {} es :=
  simulation R (fun _ _ _ _ _ hR hs => sim hR hs) (R.init ref) h

theorem related {ref : Bool} {ls : List L} {s : S} {es : List E} {σ : Spec} (h : run step (init ref) ls = some (s, es)) (hσ : specState next {} es = some σ) : R s σ :=
  simulation_state R (fun _ _ _ _ _ hR hs => sim hR hs) (R.init ref) h hσ

theorem step_ref {s s' : S} {l : L} {e : List E} (hs : step s l = some (s', e)) : s'.ref = s.ref := by
  cases l <;> simp only [step, go, enterGet, enterTimed] at hs <;> (repeat' split at hs) <;>
    first | (cases hs; done) | (cases hs; rfl) | (cases hd : s.done with | none => (rw [hd] at hs; cases hs) | some o => (rw [hd] at hs; cases hs; rfl))

theorem run_ref {s s' : S} {ls : List L} {es : List E} (h : run step s ls = some (s', es)) : s'.ref = s.ref :=
  run_inv (fun x => x.ref = s.ref) (fun _ _ _ _ h hs => (step_ref hs).trans h) rfl h

theorem R.free {s : S} {σ : Spec} (h : R s σ) (hr : s.ref = false ∨ ∀ r, σ.phase ≠ .running r) : s.mtx = none := by
  have hsh := h.shape
  cases hp : σ.phase with
  | notRun => rw [hp] at hsh; exact hsh.2.2.1
  | running r =>
    rw [hp] at hsh
    rcases hr with hr | hr
    · rw [hsh.2.2.1, hr]; rfl
    · exact absurd hp (hr r)
  | ended o => rw [hp] at hsh; exact hsh.2.1

theorem R.top {s : S} {σ : Spec} {t : Nat} {op : Op} (h : R s σ) (hc : (σ.calls t).head? = some op) : ∃ f l, s.stk t = f :: l ∧ f.op = op := by
  rw [h.calls] at hc
  cases e : s.stk t with
  | nil => simp [e] at hc
  | cons f l => simp [e] at hc; exact ⟨f, l, rfl, hc⟩

/-- Whoever asks is answered by steps of their own, whatever the other threads do or wait for, unless the function of a future for a reference is running. -/
theorem asked_prompt_partial {ref : Bool} {ls : List L} {s : S} {es : List E} {σ : Spec} {t : Nat} (h : run step (init ref) ls = some (s, es)) (hσ : specState next {} es = some σ)
    (hr : ref = false ∨ ∀ r, σ.phase ≠ .running r) (ht : (σ.calls t).head? = some .ask) : ∃ s' b, run step s [.go t] = some (s', [.told t b]) := by
  have hR := related h hσ
  have hm := hR.free (by rw [run_ref h]; exact hr)
  obtain ⟨f, l, hl, hf⟩ := hR.top ht
  cases f <;> cases hf
  exact ⟨_, _, by simp only [run, step, go, hm, hl]; rfl⟩

/-- The same for timed waits. -/
theorem timed_prompt_partial {ref : Bool} {ls : List L} {s : S} {es : List E} {σ : Spec} {t : Nat} (h : run step (init ref) ls = some (s, es)) (hσ : specState next {} es = some σ)
    (hr : ref = false ∨ ∀ r, σ.phase ≠ .running r) (ht : (σ.calls t).head? = some .timed) :
    ∃ ls' s' st, (∀ l ∈ ls', l = .go t ∨ l = .late t) ∧ run step s ls' = some (s', [.status t st]) := by
  have hR := related h hσ
  have hm := hR.free (by rw [run_ref h]; exact hr)
  obtain ⟨f, l, hl, hf⟩ := hR.top ht
  have late : ∀ x : S, x.mtx = none → x.stk t = .twait :: l → ∃ s' st, run step x [.late t] = some (s', [.status t st]) :=
    fun x hx hxl => ⟨_, _, by simp only [run, step, hx, hxl]; rfl⟩
  cases f <;> cases hf
  · by_cases hd : s.deferred
    · exact ⟨[.go t], _, _, by simp, by simp only [run, step, go, enterTimed, hm, hl, hd]; rfl⟩
    · by_cases hn : s.done.isSome
      · exact ⟨[.go t], _, _, by simp, by simp only [run, step, go, enterTimed, hm, hl, hd, hn]; rfl⟩
      · have h1 : step s (.go t) = some (s.put t (.twait :: l), []) := by simp [step, go, enterTimed, hm, hl, hd, hn]
        obtain ⟨s', st, h2⟩ := late (s.put t (.twait :: l)) hm (by simp [S.put])
        exact ⟨[.go t, .late t], s', st, by simp, run_step h1 h2⟩
  · obtain ⟨s', st, h2⟩ := late s hm hl
    exact ⟨[.late t], s', st, by simp, h2⟩

/-- For values and `void`, whoever asks is always answered by a step of their own. -/
theorem value_prompt {ls : List L} {s : S} {es : List E} {σ : Spec} {t : Nat} (h : run step (init false) ls = some (s, es)) (hσ : specState next {} es = some σ)
    (ht : (σ.calls t).head? = some .ask) : ∃ s' b, run step s [.go t] = some (s', [.told t b]) :=
  asked_prompt_partial h hσ (.inl rfl) ht

/-- Once the function has ended, every `get` under way can return without any user code: only library steps are left. -/
theorem get_returns {ref : Bool} {ls : List L} {s : S} {es : List E} {σ : Spec} {t : Nat} {o : Out} (h : run step (init ref) ls = some (s, es)) (hσ : specState next {} es = some σ)
    (hp : σ.phase = .ended o) (ht : (σ.calls t).head? = some .get) : ∃ ls' s' es', (∀ l ∈ ls', ∃ u, l = .go u) ∧ run step s ls' = some (s', es') ∧ .got t o ∈ es' := by
  have hR := related h hσ
  have hm := hR.free (.inr (by simp [hp]))
  have hsh := hR.shape; rw [hp] at hsh
  obtain ⟨f, l, hl, hf⟩ := hR.top ht
  have fin : ∀ x : S, x.mtx = none → x.deferred = false → x.done = some o → x.stk t = f :: l → f.plain = true → ∃ s', run step x [.go t] = some (s', [.got t o]) := by
    intro x hx hd hxo hxl hfp
    cases f <;> cases hf <;> first | (cases hfp; done) | skip
    · exact ⟨_, by simp only [run, step, go, enterGet, hx, hd, hxo, hxl]; rfl⟩
    · exact ⟨_, by simp only [run, step, go, hx, hd, hxo, hxl]; rfl⟩
  rcases hsh.2.2 with ⟨hd, hq⟩ | ⟨hd, r, hr, hq⟩
  · have : f.plain = true := by have := hq t; rw [hl] at this; exact this.tail.1
    obtain ⟨s', h'⟩ := fin s hm hsh.1 hd hl this
    exact ⟨[.go t], s', _, by simp, h', by simp⟩
  · have h1 : step s (.go r) = some ({ s.put r [] with done := some o }, [.got r o]) := by simp [step, go, hm, hr]
    by_cases e : t = r
    · subst e
      exact ⟨[.go t], _, _, by simp, run_step h1 (by rw [run_nil]), by simp⟩
    · have hfp : f.plain = true := by have := hq t e; rw [hl] at this; exact this.tail.1
      obtain ⟨s', h'⟩ := fin { s.put r [] with done := some o } hm hsh.1 rfl (by simp [S.put, e, hl]) hfp
      exact ⟨[.go r, .go t], s', _, by simp, run_step h1 h', by simp⟩

/-- While a thread has the mutex nobody gets an answer. -/
theorem held {s s' : S} {l : L} {e : List E} {r : Nat} (hm : s.mtx = some r) (hs : step s l = some (s', e)) :
    (s'.mtx = some r ∧ ∃ t op, e = [.call t op]) ∨ ∃ t o, l = .fin t o := by
  cases l with
  | call t op =>
    refine .inl ?_
    simp only [step] at hs
    split at hs <;> cases hs
    · exact ⟨hm, _, _, rfl⟩
    · exact ⟨hm, _, _, rfl⟩
  | go t => simp [step, go, hm] at hs
  | late t => simp [step, hm] at hs
  | fin t o => exact .inr ⟨t, o, rfl⟩

/-- False for references: while the function runs, another thread that asks whether the future is ready gets no answer until the function has ended, however long that takes
(1081-1090: the function is called with the mutex locked). -/
theorem reference_blocks : ∃ ls s es σ, run step (init true) ls = some (s, es) ∧ specState next {} es = some σ ∧ (σ.calls 1).head? = some .ask ∧
    ∀ ls' s' es', run step s ls' = some (s', es') → (∀ t o, .ended t o ∉ es') → ∀ b, .told 1 b ∉ es' := by
  refine ⟨[.call 0 .get, .go 0, .call 1 .ask], _, _, _, rfl, rfl, rfl, ?_⟩
  have key : ∀ (ls' : List L) (s s' : S) (es' : List E), s.mtx = some 0 → run step s ls' = some (s', es') → (∀ t o, .ended t o ∉ es') → ∀ b, .told 1 b ∉ es' := by
    intro ls'
    induction ls' with
    | nil => intro s s' es' _ h; rw [run_nil] at h; cases h; simp
    | cons l ls' ih =>
      intro s s' es' hm h hne b
      obtain ⟨m, e1, e2, h1, h2, rfl⟩ := run_cons h
      rcases held hm h1 with ⟨hm', t, op, rfl⟩ | ⟨t, o, rfl⟩
      · have := ih m s' e2 hm' h2 (fun t o hx => hne t o (by simp [hx])) b
        simp [this]
      · simp only [step] at h1
        split at h1
        · split at h1 <;> cases h1 <;> exact absurd (by simp) (hne t o)
        · cases h1
  exact fun ls' s' es' h => key ls' _ s' es' rfl h

/-- And if the function asks about its own future, as the function of a future for a value may, no call on that future ever returns again, in any thread. -/
theorem reference_deadlock : ∃ ls s es σ, run step (init true) ls = some (s, es) ∧ specState next {} es = some σ ∧ σ.phase = .running 0 ∧ σ.calls 0 = [.ask, .get] ∧
    ∀ ls' s' es', run step s ls' = some (s', es') → ∀ e ∈ es', ∃ t op, e = .call t op := by
  refine ⟨[.call 0 .get, .go 0, .call 0 .ask], _, _, _, rfl, rfl, rfl, rfl, ?_⟩
  have key : ∀ (ls' : List L) (s s' : S) (es' : List E), s.mtx = some 0 → s.stk 0 = [.acq .ask, .fn] → (∀ t, t ≠ 0 → ∀ f ∈ s.stk t, ∃ op, f = .acq op) →
      run step s ls' = some (s', es') → ∀ e ∈ es', ∃ t op, e = .call t op := by
    intro ls'
    induction ls' with
    | nil => intro s s' es' _ _ _ h; rw [run_nil] at h; cases h; simp
    | cons l ls' ih =>
      intro s s' es' hm h0 hq h e he
      obtain ⟨m, e1, e2, h1, h2, rfl⟩ := run_cons h
      rcases held hm h1 with ⟨hm', t, op, rfl⟩ | ⟨t, o, rfl⟩
      · have hl : l = .call t op := by
          cases l with
          | call t' op' => simp only [step] at h1; split at h1 <;> cases h1 <;> rfl
          | go t' => simp [step, go, hm] at h1
          | late t' => simp [step, hm] at h1
          | fin t' o' => simp only [step] at h1; (repeat' split at h1) <;> cases h1
        subst hl
        have ht : t ≠ 0 := fun e => by subst e; simp [step, h0] at h1
        have h0' : m.stk 0 = [.acq .ask, .fn] := by
          simp only [step] at h1
          split at h1 <;> cases h1 <;> simp [S.put, Ne.symm ht, h0]
        have hq' : ∀ u, u ≠ 0 → ∀ f ∈ m.stk u, ∃ op, f = .acq op := by
          intro u hu f hf
          simp only [step] at h1
          split at h1
          · cases h1
            simp only [S.put] at hf
            split at hf
            · simp at hf; exact ⟨_, hf⟩
            · exact hq u hu f hf
          · next rest hr => obtain ⟨_, hc⟩ := hq t ht .fn (by simp [hr]); cases hc
          · cases h1
        rcases List.mem_append.1 he with he | he
        · simp at he; exact ⟨_, _, he⟩
        · exact ih m s' e2 hm' h0' hq' h2 e he
      · exfalso
        simp only [step] at h1
        split at h1
        · next rest hr =>
          by_cases e0 : t = 0
          · subst e0; rw [h0] at hr; cases hr
          · obtain ⟨_, hc⟩ := hq t e0 .fn (by simp [hr]); cases hc
        · cases h1
  intro ls' s' es' h
  refine key ls' _ s' es' rfl rfl ?_ h
  intro t ht f hf
  simp [S.put, init, ht, Deferred.go, enterGet] at hf

/-! ## The hypotheses are met -/

/-- What a schedule shows. -/
def obs (ref : Bool) (ls : List L) : Option (List E) := (run step (init ref) ls).map (·.2)

/-- A function for a value asks about its own future; another thread waits, a third asks; everybody is answered. -/
example : obs false [.call 2 .timed, .go 2, .call 0 .get, .go 0, .call 0 .ask, .go 0, .call 1 .get, .go 1, .call 2 .timed, .go 2, .late 2, .call 0 .timed, .go 0, .late 0, .fin 0 (.value 7),
      .call 2 .ask, .go 2, .go 0, .go 1, .call 2 .ask, .go 2] =
    some [.call 2 .timed, .status 2 .deferred, .call 0 .get, .began 0, .call 0 .ask, .told 0 false, .call 1 .get, .call 2 .timed, .status 2 .timeout, .call 0 .timed, .status 0 .timeout,
      .ended 0 (.value 7), .call 2 .ask, .told 2 false, .got 0 (.value 7), .got 1 (.value 7), .call 2 .ask, .told 2 true] := by decide +kernel

/-- A function for a reference, with nobody asking meanwhile. -/
example : obs true [.call 0 .get, .go 0, .call 1 .get, .call 2 .ask, .fin 0 (.threw 3), .go 2, .go 1] =
    some [.call 0 .get, .began 0, .call 1 .get, .call 2 .ask, .ended 0 (.threw 3), .got 0 (.threw 3), .told 2 true, .got 1 (.threw 3)] := by decide +kernel

/-- The specification refuses a second run, a `get` before the end, an untrue answer and a function run by a query. -/
example : ¬ Accepts next {} [.call 0 .get, .began 0, .call 1 .get, .began 1] ∧ ¬ Accepts next {} [.call 0 .get, .began 0, .got 0 (.value 1)] ∧
    ¬ Accepts next {} [.call 0 .get, .began 0, .call 1 .ask, .told 1 true] ∧ ¬ Accepts next {} [.call 0 .ask, .began 0] ∧
    ¬ Accepts next {} [.call 0 .get, .began 0, .ended 0 (.value 1), .got 0 (.value 2)] ∧
    ¬ Accepts next {} [.call 0 .get, .began 0, .ended 0 (.value 1), .got 0 (.value 1), .call 1 .ask, .told 1 false] ∧ ¬ Accepts next {} [.call 0 .timed, .status 0 .timeout] := by decide +kernel

end Verif.Deferred
