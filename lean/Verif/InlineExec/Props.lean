import Verif.InlineExec.Sim
/-!
# inline_executor: the properties
-/
set_option linter.unusedVariables false
set_option linter.unusedSimpArgs false

namespace Verif.InlineExec

/-- C61. Every history of `submit`, `close`, `closed` and the destructor, by any number of threads and nested in closures, is one that the specification
allows: `submit` returns after its closure, which is executed once, in the calling thread; a closure for which `submit` throws is not executed; `submit`
throws `sync_queue_is_closed` if `close` has returned before and only if `close` has been called; nothing happens after a closure has thrown. -/
theorem conforms {ls : List Label} {s : St} {es : List Event} (h : run step init ls = some (s, es)) : Accepts next {} es :=
  simulation (R := Rd) (fun s l s' es σ hi hs => step_ok hi hs) (Or.inr R_init) h

/-- Steps of thread `w` in which it makes no new call, and steps in which others leave the critical section. -/
def helps (w : Nat) : Label → Prop
  | .lock v | .start v | .finish v | .ret v => v = w
  | .act _ | .unlock _ => True
  | _ => False

/-- A call by `w` returns. -/
def returns (w : Nat) : Event → Prop
  | .accepted v _ | .refused v _ | .hasClosed v | .says v _ => v = w
  | _ => False

def Returns (w : Nat) (s : St) : Prop := ∃ ls s' es e, (∀ l ∈ ls, helps w l) ∧ run step s ls = some (s', es ++ [e]) ∧ returns w e

theorem Returns.last {w : Nat} {s s' : St} {l : Label} {e : Event} (hs : step s l = some (s', [e])) (hl : helps w l) (he : returns w e) : Returns w s :=
  ⟨[l], s', [], e, by simpa using hl, by simp [run, hs], he⟩

theorem Returns.before {w : Nat} {s m : St} {l : Label} {es : List Event} (hs : step s l = some (m, es)) (hl : helps w l) (h : Returns w m) : Returns w s := by
  obtain ⟨ls, s', es', e, h1, h2, h3⟩ := h
  refine ⟨l :: ls, s', es ++ es', e, ?_, ?_, h3⟩
  · intro x hx
    rcases List.mem_cons.1 hx with hx | hx
    · subst hx; exact hl
    · exact h1 x hx
  · rw [List.append_assoc]; exact run_step hs h2

theorem returns_ret {w : Nat} {s : St} (hd : s.dead = false) {c : Nat} (hp : s.pc w = .ret c) : Returns w s := by
  refine .last (l := .ret w) (e := .accepted w c) (s' := s.goto w .idle) ?_ rfl rfl
  unfold step; rw [if_neg (by rw [hd]; simp)]; simp only [hp]

theorem returns_finish {w : Nat} {s : St} (hd : s.dead = false) {c : Nat} {k : List Nat} (hp : s.pc w = .idle) (hk : s.stack w = c :: k) : Returns w s := by
  refine .before (l := .finish w) (es := [.ended w c]) (m := { s.goto w (.ret c) with stack := upd s.stack w k }) ?_ rfl
    (returns_ret hd (c := c) (by show upd s.pc w (.ret c) w = _; rw [upd_same]))
  unfold step; rw [if_neg (by rw [hd]; simp)]; simp only; rw [if_pos hp]; simp only [hk]

theorem returns_start {w : Nat} {s : St} (hd : s.dead = false) {c : Nat} (hp : s.pc w = .start c) : Returns w s := by
  refine .before (l := .start w) (es := [.began w c]) (m := { s.goto w .idle with stack := upd s.stack w (c :: s.stack w) }) ?_ rfl
    (returns_finish hd (c := c) (k := s.stack w) (by show upd s.pc w .idle w = _; rw [upd_same]) (by show upd s.stack w _ w = _; rw [upd_same]))
  unfold step; rw [if_neg (by rw [hd]; simp)]; simp only [hp]

theorem step_unlock {s : St} (hd : s.dead = false) {v : Nat} {op : Op} {r : Res} (hp : s.pc v = .unlock op r) :
    step s (.unlock v) = some (stepUnlock s v op r) := by
  unfold step; rw [if_neg (by rw [hd]; simp)]; simp only [hp]

theorem step_act {s : St} (hd : s.dead = false) {v : Nat} {op : Op} (hp : s.pc v = .act op) : step s (.act v) = some (stepAct s v op, []) := by
  unfold step; rw [if_neg (by rw [hd]; simp)]; simp only [hp]

theorem returns_unlock {w : Nat} {s : St} {σ : Sys} (h : R s σ) (hd : s.dead = false) {op : Op} {r : Res} (hp : s.pc w = .unlock op r) (ho : op ≠ .closeD) : Returns w s := by
  have hs := step_unlock hd hp
  have hsh := h.shown w
  rw [hp] at hsh
  cases op with
  | submit c =>
    cases r with
    | go => exact .before hs trivial (returns_start hd (c := c) (by show upd s.pc w _ w = _; rw [upd_same]; rfl))
    | refused => exact .last (e := .refused w c) hs trivial rfl
    | none => exact hsh.elim
    | is b => exact hsh.elim
  | close =>
    have e : returned w .close r = [.hasClosed w] := by cases r <;> rfl
    unfold stepUnlock at hs
    rw [e] at hs
    exact .last hs trivial rfl
  | closeD => exact absurd rfl ho
  | ask =>
    cases r with
    | is b => exact .last (e := .says w b) hs trivial rfl
    | go => exact hsh.elim
    | refused => exact hsh.elim
    | none => exact hsh.elim

theorem act_pc (s : St) (w : Nat) (op : Op) : ∃ r, (stepAct s w op).pc w = .unlock op r ∧ ∀ v, v ≠ w → (stepAct s w op).pc v = s.pc v := by
  cases op with
  | submit c =>
    unfold stepAct
    simp only
    split
    · exact ⟨.refused, upd_same _ _ _, fun v hv => upd_other _ _ hv⟩
    · exact ⟨.go, upd_same _ _ _, fun v hv => upd_other _ _ hv⟩
  | close => exact ⟨.none, upd_same _ _ _, fun v hv => upd_other _ _ hv⟩
  | closeD => exact ⟨.none, upd_same _ _ _, fun v hv => upd_other _ _ hv⟩
  | ask => exact ⟨.is s.closed, upd_same _ _ _, fun v hv => upd_other _ _ hv⟩

theorem act_rest (s : St) (w : Nat) (op : Op) : (stepAct s w op).dead = s.dead ∧ (stepAct s w op).phase = s.phase := by
  cases op with
  | submit c => unfold stepAct; simp only; split <;> exact ⟨rfl, rfl⟩
  | _ => exact ⟨rfl, rfl⟩

theorem returns_act {w : Nat} {s : St} {σ : Sys} (h : R s σ) (hd : s.dead = false) {op : Op} (hp : s.pc w = .act op) (ho : op ≠ .closeD) : Returns w s := by
  obtain ⟨r, hr, -⟩ := act_pc s w op
  exact .before (l := .act w) (step_act hd hp) trivial (returns_unlock (act_ok h hp) (by rw [(act_rest s w op).1]; exact hd) hr ho)

theorem returns_lock {w : Nat} {s : St} {σ : Sys} (h : R s σ) (hd : s.dead = false) {op : Op} (hp : s.pc w = .lock op) (ho : op ≠ .closeD) (hm : s.mtx = none)
    (hg : s.phase = .alive) : Returns w s := by
  have hs : step s (.lock w) = some ({ s.goto w (.act op) with mtx := some w }, []) := by
    unfold step; rw [if_neg (by rw [hd]; simp)]; simp only [hp]; rw [if_neg (by rw [hg]; simp), if_pos hm]
  have hf := step_ok (Or.inr h) hs
  simp only [Follows] at hf
  rcases hf with hf | hf
  · have hx : s.dead = true := hf
    rw [hd] at hx; cases hx
  · exact .before (l := .lock w) hs rfl (returns_act hf hd (by show upd s.pc w _ w = _; rw [upd_same]) ho)

theorem returned_follows {σ : Sys} {v : Nat} {op : Op} {r : Res} {P : Sys → Prop} (h : Follows next P σ (returned v op r)) : ∃ σ', P σ' := by
  have one : ∀ e, returns v e → Follows next P σ [e] → ∃ σ', P σ' := by
    intro e he hf
    have hne : next σ e ≠ .undefined := by
      cases e <;> first
        | exact he.elim
        | (simp only [next]; split <;> first | (simp; done) | (split <;> simp))
    simp only [Follows] at hf
    cases hn : next σ e with
    | ok σ' => rw [hn] at hf; exact ⟨σ', hf⟩
    | undefined => exact absurd hn hne
    | illegal => rw [hn] at hf; exact hf.elim
  cases op <;> cases r <;> first
    | exact ⟨_, h⟩
    | exact one (.refused v _) rfl h
    | exact one (.hasClosed v) rfl h
    | exact one (.says v _) rfl h

/-- The lock is available, or will be when its owner has gone on. -/
theorem returns_wait {w : Nat} {s : St} {σ : Sys} (h : R s σ) (hd : s.dead = false) {op : Op} (hp : s.pc w = .lock op) (ho : op ≠ .closeD)
    (hg : s.phase = .alive) : Returns w s := by
  have unl : ∀ (s : St) (σ : Sys), R s σ → s.dead = false → s.pc w = .lock op → s.phase = .alive → ∀ v op' r, v ≠ w → s.pc v = .unlock op' r → Returns w s := by
    intro s σ h hd hp hg v op' r hv hq
    obtain ⟨σ', h'⟩ := returned_follows (unlock_ok h hq)
    refine .before (step_unlock hd hq) trivial (returns_lock h' hd (op := op) ?_ ho rfl ?_)
    · show upd s.pc v _ w = _; rw [upd_other _ _ (fun e => hv e.symm)]; exact hp
    · show s.phase.after op' = .alive
      rw [hg]; cases op' <;> rfl
  cases hm : s.mtx with
  | none => exact returns_lock h hd hp ho hm hg
  | some v =>
    have hh := h.mtx v hm
    have hv : v ≠ w := by intro e; subst e; rw [hp] at hh; cases hh
    cases hq : s.pc v with
    | unlock op' r => exact unl s σ h hd hp hg v op' r hv hq
    | act op' =>
      obtain ⟨r, h1, h2⟩ := act_pc s v op'
      refine .before (step_act hd hq) trivial (unl _ σ (act_ok h hq) (by rw [(act_rest s v op').1]; exact hd) ?_ (by rw [(act_rest s v op').2]; exact hg) v op' r hv h1)
      rw [h2 w (fun e => hv e.symm)]; exact hp
    | idle => rw [hq] at hh; cases hh
    | lock op' => rw [hq] at hh; cases hh
    | start c => rw [hq] at hh; cases hh
    | ret c => rw [hq] at hh; cases hh

/-- C61. A call in progress returns once the closure has (if it is a `submit` that has come to it): however deeply it is nested in other closures, and whatever
the other threads do, provided they leave the critical section. -/
theorem call_returns {ls : List Label} {s : St} {es : List Event} {σ : Sys} {w : Nat} (h : run step init ls = some (s, es))
    (hσ : specState next {} es = some σ) (ht : σ.over = false) (hw : σ.stack w ≠ []) :
    ∃ ls' s' es' e, (∀ l ∈ ls', helps w l) ∧ run step s ls' = some (s', es' ++ [e]) ∧ returns w e := by
  have hover : ∀ s l s' es σ, (σ.over = s.dead ∧ Rd s σ) → step s l = some (s', es) → Follows next (fun σ' => σ'.over = s'.dead ∧ Rd s' σ') σ es := by
    intro s l s' es σ hi hs
    have hd : s.dead = false := by
      unfold step at hs
      split at hs
      · cases hs
      · rename_i hx; simpa using hx
    have hR : R s σ := by
      rcases hi.2 with h1 | h1
      · rw [hd] at h1; cases h1
      · exact h1
    have hf := step_ok hi.2 hs
    have bad : ∀ {P : Prop}, s.dead = true → P := by intro P hx; rw [hd] at hx; cases hx
    by_cases hd' : s'.dead = true
    · -- only `throw` and the uses of a mutex that is gone end the program
      unfold step at hs
      rw [if_neg (by rw [hd]; simp)] at hs
      cases l with
      | throw v =>
        simp only at hs
        split at hs
        · split at hs <;> cases hs
          simp only [Follows, next, hR.over, Bool.false_eq_true, if_false] at hf ⊢
          rename_i c _ _
          by_cases hx : (σ.stack v).head? = some (.submit c false .running)
          · rw [if_pos hx]; exact ⟨rfl, Or.inl rfl⟩
          · rw [if_neg hx] at hf; exact hf.elim
        · cases hs
      | call v r =>
        simp only at hs
        split at hs
        · cases r <;> cases hs <;> exact bad hd'
        · cases hs
      | act v =>
        simp only at hs
        split at hs <;> cases hs
        rw [(act_rest _ _ _).1, hd] at hd'; cases hd'
      | lock v =>
        simp only at hs
        split at hs
        · split at hs
          · cases hs
            simp only [Follows, next, hR.over, Bool.false_eq_true, if_false] at hf
          · split at hs <;> cases hs; exact bad hd'
        · cases hs
      | unlock v => simp only at hs; split at hs <;> cases hs; exact bad hd'
      | start v => simp only at hs; split at hs <;> cases hs; exact bad hd'
      | ret v => simp only at hs; split at hs <;> cases hs; exact bad hd'
      | finish v =>
        simp only at hs
        split at hs
        · split at hs <;> cases hs; exact bad hd'
        · cases hs
      | destroy v => simp only at hs; split at hs <;> cases hs; exact bad hd'
      | destroyMutex =>
        simp only at hs
        split at hs
        · split at hs <;> cases hs
          · exact bad hd'
          · simp only [Follows, next, hR.over, Bool.false_eq_true, if_false] at hf
        · cases hs
    · have hd' : s'.dead = false := by simpa using hd'
      refine Follows.weaken (fun σ' hx => ?_) hf
      rcases hx with hx | hx
      · rw [hd'] at hx; cases hx
      · exact ⟨by rw [hx.over, hd'], Or.inr hx⟩
  obtain ⟨h1, h2⟩ := simulation_state (fun s σ => σ.over = s.dead ∧ Rd s σ) hover ⟨rfl, Or.inr R_init⟩ h hσ
  have hd : s.dead = false := by rw [← h1]; exact ht
  have hR : R s σ := by
    rcases h2 with h2 | h2
    · rw [hd] at h2; cases h2
    · exact h2
  obtain ⟨a1, -, -, a4⟩ := hR.alive (Or.inr hw)
  have hdt := a4 w
  show Returns w s
  cases hp : s.pc w with
  | idle =>
    have hsh := hR.shown w
    rw [hp] at hsh
    have hsh : σ.stack w = base (s.stack w) := hsh
    cases hk : s.stack w with
    | nil => rw [hk] at hsh; exact absurd hsh hw
    | cons c k => exact returns_finish hd hp hk
  | lock op => exact returns_wait hR hd hp (by intro e; subst e; rw [hp] at hdt; cases hdt) a1
  | act op => exact returns_act hR hd hp (by intro e; subst e; rw [hp] at hdt; cases hdt)
  | unlock op r => exact returns_unlock hR hd hp (by intro e; subst e; rw [hp] at hdt; cases hdt)
  | start c => exact returns_start hd hp
  | ret c => exact returns_ret hd hp

/-! ## Histories -/

theorem of_events {st : St → Label → Option (St × List Event)} {i : St} {ls : List Label} {es : List Event} (h : (run st i ls).map Prod.snd = some es) :
    ∃ s, run st i ls = some (s, es) := by
  cases hr : run st i ls with
  | none => rw [hr] at h; cases h
  | some x => rw [hr] at h; cases h; exact ⟨x.1, rfl⟩

/-- A closure that submits another one, one that another thread closes the executor under, one refused, the destructor. -/
example : ∃ ls s, run step init ls = some (s,
    [.submits 0 0, .began 0 0, .submits 0 1, .began 0 1, .closes 1, .hasClosed 1, .ended 0 1, .accepted 0 1, .submits 0 2, .refused 0 2, .ended 0 0, .accepted 0 0,
      .asks 2, .says 2 true, .destroys 2, .destroyed 2]) :=
  ⟨[.call 0 .submit, .lock 0, .act 0, .unlock 0, .start 0, .call 0 .submit, .lock 0, .act 0, .unlock 0, .start 0, .call 1 .close, .lock 1, .act 1, .unlock 1, .finish 0,
    .ret 0, .call 0 .submit, .lock 0, .act 0, .unlock 0, .finish 0, .ret 0, .call 2 .ask, .lock 2, .act 2, .unlock 2, .destroy 2, .lock 2, .act 2, .unlock 2,
    .destroyMutex], of_events (by decide +kernel)⟩

/-- A nested call to which `call_returns` applies: its thread waits for the mutex, which another thread holds. -/
example : ∃ ls s σ, run step init ls = some (s, [.submits 0 0, .began 0 0, .submits 0 1, .asks 1]) ∧
    specState next {} [.submits 0 0, .began 0 0, .submits 0 1, .asks 1] = some σ ∧ σ.over = false ∧ σ.stack 0 ≠ [] ∧ s.mtx = some 1 :=
  ⟨[.call 0 .submit, .lock 0, .act 0, .unlock 0, .start 0, .call 0 .submit, .call 1 .ask, .lock 1, .act 1], _, _, rfl, rfl, rfl, by decide, rfl⟩

/-- A closure that throws. -/
example : ∃ ls s, run step init ls = some (s, [.submits 0 0, .began 0 0, .threw 0 0]) :=
  ⟨[.call 0 .submit, .lock 0, .act 0, .unlock 0, .start 0, .throw 0], of_events (by decide +kernel)⟩

/-- What the specification forbids: a `submit` that returns before its closure; a closure in another thread; one executed although `close` has returned, or
twice; a refusal without `close`; anything after a closure has thrown. -/
example : ¬ Accepts next {} [.submits 0 0, .accepted 0 0] := by decide +kernel
example : ¬ Accepts next {} [.submits 0 0, .began 0 0, .accepted 0 0] := by decide +kernel
example : ¬ Accepts next {} [.submits 0 0, .began 1 0] := by decide +kernel
example : ¬ Accepts next {} [.closes 1, .hasClosed 1, .submits 0 0, .began 0 0] := by decide +kernel
example : ¬ Accepts next {} [.submits 0 0, .began 0 0, .ended 0 0, .began 0 0] := by decide +kernel
example : ¬ Accepts next {} [.submits 0 0, .refused 0 0] := by decide +kernel
example : ¬ Accepts next {} [.submits 0 0, .began 0 0, .refused 0 0] := by decide +kernel
example : ¬ Accepts next {} [.submits 0 0, .began 0 0, .threw 0 0, .closes 1] := by decide +kernel
example : ¬ Accepts next {} [.submits 0 0, .began 0 0, .submits 0 1, .ended 0 0] := by decide +kernel

end Verif.InlineExec
