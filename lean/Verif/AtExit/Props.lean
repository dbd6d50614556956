import Verif.AtExit.Sim
/-!
# C58: the end of a thread

`notify_all_at_thread_exit`, `promise::set_value_at_thread_exit`, `set_exception_at_thread_exit`.
-/

namespace Verif.AtExit

set_option linter.unusedSimpArgs false

/-! ## What is asked for is done at most once, in order, and not before the end of the thread -/

theorem asked_eq {s : St} {h : List Event} (hi : Inv s h) {u : Nat} (hl : (s.d u).lib = true) : asked u h = jobs (s.d u) := by
  simp only [asked, jobs, hl, if_true, (hi.data u).asked1 hl, (hi.data u).asked2 hl]

theorem effects_ext {s : St} {h : List Event} (hi : Inv s h) {u : Nat} (hl : (s.d u).lib = false) : effects u h = [] := by
  cases hle : (s.d u).left with
  | none => exact (hi.data u).none' hle
  | some js =>
    have := (hi.data u).some' js hle
    simp only [jobs, hl, Bool.false_eq_true, if_false, List.append_eq_nil_iff] at this
    exact this.1

theorem effects_lib {s : St} {h : List Event} (hi : Inv s h) {u : Nat} (hl : (s.d u).lib = true) : effects u h ++ pend (s.d u) = asked u h := by
  rw [asked_eq hi hl]
  simp only [pend, hl, if_true]
  cases hle : (s.d u).left with
  | none => rw [(hi.data u).none' hle]; rfl
  | some js => exact (hi.data u).some' js hle

/-- In every run, the effects carried out for a thread are, in this order, the first ones of those asked for: first each
mutex is unlocked and its condition variable notified, then the promises become ready. -/
theorem effects_in_order {n : Nat} {ls : List Label} {s : St} {h : List Event} (hr : run step (init n) ls = some (s, h)) (u : Nat) :
    effects u h <+: asked u h := by
  have hi := inv_run hr
  cases hl : (s.d u).lib with
  | true => exact ⟨_, effects_lib hi hl⟩
  | false => rw [effects_ext hi hl]; exact List.nil_prefix

theorem step_eff {s s' : St} {h es : List Event} {l : Label} {x u : Nat} {f : Eff} (hi : Inv s h) (hst : step s l = some (s', es))
    (hmem : Event.eff x u f ∈ es) : Event.finish u ∈ h := by
  unfold step at hst
  split at hst
  · next hp =>
    exfalso
    unfold stepIdle at hst
    cases l <;> dsimp only at hst <;> (repeat' split at hst) <;> cases hst <;> simp at hmem
  · exfalso
    split at hst
    · split at hst <;> cases hst
      simp at hmem
    · cases hst
  · next v k hp =>
    split at hst
    · next w f' js hleft =>
      cases hst
      simp only [List.mem_singleton, Event.eff.injEq] at hmem
      obtain ⟨_, rfl, rfl⟩ := hmem
      have hl := hi.lib_of_left hleft
      have hf := (hi.data u).free' hl
      rw [hleft] at hf
      simp only [reduceCtorEq, false_iff, Bool.not_eq_false] at hf
      refine (hi.data u).own hl ?_
      simp only [Data.free, Bool.and_eq_true, Bool.not_eq_true'] at hf
      exact hf.1.1
    · exfalso
      simp only [Option.some.injEq] at hst
      cases k <;> simp only [finishUp, Prod.mk.injEq] at hst <;> rw [← hst.2] at hmem <;> simp at hmem
    · cases hst
  · next k hp =>
    exfalso
    split at hst
    · simp only [Option.some.injEq] at hst
      cases k <;> simp only [finishUp, Prod.mk.injEq] at hst <;> rw [← hst.2] at hmem <;> simp at hmem
    · cases hst
  · cases hst

/-- No effect before the function of the thread has returned, its exit functions have run and its thread-specific
pointers are reset. -/
theorem effects_after_finish {n : Nat} {ls : List Label} {s : St} {h : List Event} (hr : run step (init n) ls = some (s, h))
    {h₁ h₂ : List Event} {x u : Nat} {f : Eff} (hs : h = h₁ ++ .eff x u f :: h₂) : Event.finish u ∈ h₁ := by
  have key := run_inv_hist (step := step) (fun s h => Inv s h ∧ ∀ h₁ h₂ x u f, h = h₁ ++ Event.eff x u f :: h₂ → Event.finish u ∈ h₁)
    (fun s l s' h es hi hst => by
      refine ⟨inv_step hi.1 hst, ?_⟩
      intro h₁ h₂ x u f he
      rcases List.append_eq_append_iff.mp he with ⟨a, h1, h2⟩ | ⟨a, h1, h2⟩
      · rw [h1]
        exact List.mem_append_left _ (step_eff (x := x) (f := f) hi.1 hst (by rw [h2]; simp))
      · cases a with
        | nil =>
          simp only [List.append_nil, List.nil_append] at h1 h2
          subst h1
          exact step_eff (x := x) (f := f) hi.1 hst (by rw [← h2]; simp)
        | cons e a =>
          simp only [List.cons_append, List.cons.injEq] at h2
          obtain ⟨rfl, rfl⟩ := h2
          exact hi.2 h₁ a x u f h1)
    (hist := []) ⟨inv_init n, by intro h₁ h₂ x u f h; simp at h⟩ hr
  exact key.2 h₁ h₂ x u f (by simpa using hs)

/-! ## When the effects are carried out -/

/-- The whole of what a thread created by the library has asked for has been carried out once the thread is gone and
every reference to it has been given up by a call that has returned. Missing from the contract: this should be so as
soon as the thread is gone (`object_delays_effects`). -/
theorem carried_out_partial {n : Nat} {ls : List Label} {s : St} {h : List Event} (hr : run step (init n) ls = some (s, h)) {u : Nat}
    (hc : created u h) (hg : Event.gone u ∈ h) (hret : returned u h = begun u h) : effects u h = asked u h := by
  have hi := inv_run hr
  have hD := hi.data u
  have hl := hD.lib'.mp hc
  have h1 := hD.refs
  have h2 := hi.rets u
  have hpc := hi.gone u hg
  have hobj : (s.d u).obj = false := by
    cases ho : (s.d u).obj with
    | false => rfl
    | true => rw [ho] at h1; simp only [if_true] at h1; omega
  have hcop : (s.d u).copies = 0 := by omega
  have hown : (s.d u).own = false := by
    cases ho : (s.d u).own with
    | false => rfl
    | true => exact absurd hpc (hi.hold u hl ho).2.1
  have hleft : (s.d u).left ≠ none := by
    rw [ne_eq, hD.free' hl]
    simp [Data.free, hobj, hcop, hown]
  have hpend : pend (s.d u) = [] := by
    simp only [pend, hl, if_true]
    cases hle : (s.d u).left with
    | none => exact absurd hle hleft
    | some js =>
      cases js with
      | nil => rfl
      | cons f js =>
        exfalso
        obtain ⟨x, k, hx, hpx⟩ := hi.busy u f js hle
        rcases hi.exec x u k hpx with rfl | ⟨rfl, rfl⟩
        · have := pending_pos (u := u) hx (pc := s.pc) (by rw [hpx]; simp [retting])
          rw [hobj] at h1
          simp only [Bool.false_eq_true, if_false] at h1
          omega
        · rw [hpc] at hpx; cases hpx
  have := effects_lib hi hl
  rw [hpend, List.append_nil] at this
  exact this

/-- As long as somebody refers to the thread (the thread object, for instance), nothing of what it has asked for is
done, even though the thread is gone. -/
theorem reference_withholds_effects {n : Nat} {ls : List Label} {s : St} {h : List Event} (hr : run step (init n) ls = some (s, h)) {u : Nat}
    (hd : dropped u h < begun u h) : effects u h = [] := by
  have hi := inv_run hr
  have hD := hi.data u
  have h1 := hD.refs
  cases hl : (s.d u).lib with
  | false => exact effects_ext hi hl
  | true =>
    refine hD.none' (hi.none_of_ref ?_ hl)
    cases ho : (s.d u).obj with
    | true => exact Or.inl rfl
    | false => rw [ho] at h1; simp only [Bool.false_eq_true, if_false] at h1; right; omega

/-- What a thread not created by the library asks for is never done. -/
theorem external_never {n : Nat} {ls : List Label} {s : St} {h : List Event} (hr : run step (init n) ls = some (s, h)) {u : Nat}
    (hc : ¬ created u h) : effects u h = [] := by
  have hi := inv_run hr
  refine effects_ext hi ?_
  cases hl : (s.d u).lib with
  | false => rfl
  | true => exact absurd ((hi.data u).lib'.mpr hl) hc

/-- The destructor of the data never blocks: the thread that executes it carries out all effects that are left. -/
theorem destructor_completes {s : St} {u w : Nat} {k : Kont} {js : List Eff} (hp : s.pc w = .dtor u k) (hleft : (s.d u).left = some js) :
    ∃ s', run step s (List.replicate (js.length + 1) (.go w)) = some (s', js.map (.eff w u) ++ (finishUp s w k).2) ∧
      (s'.pc w = .idle ∨ s'.pc w = .gone) := by
  induction js generalizing s with
  | nil =>
    refine ⟨(finishUp s w k).1, ?_, ?_⟩
    · simp only [List.length_nil, List.replicate, run, step, Label.who, hp, hleft, List.append_nil, List.map_nil, List.nil_append]
    · cases k
      · exact Or.inl (by simp [finishUp, upd])
      · exact Or.inr (by simp [finishUp, upd])
  | cons f js ih =>
    have hstep : step s (.go w) = some (perform { s with d := upd s.d u { s.d u with left := some js } } f, [.eff w u f]) := by
      simp only [step, Label.who, hp, hleft]
    obtain ⟨p1, _, p3⟩ := perform_pc { s with d := upd s.d u { s.d u with left := some js } } f
    obtain ⟨s', h1, h2⟩ := ih (s := perform { s with d := upd s.d u { s.d u with left := some js } } f)
      (by rw [p1]; exact hp) (by rw [p3]; simp [upd])
    refine ⟨s', ?_, h2⟩
    rw [List.length_cons, List.replicate_succ, run, hstep]
    dsimp only
    rw [h1]
    have : ∀ s : St, (finishUp s w k).2 = (match k with | .ret v => [Event.ret w v] | .bye => [.gone w]) := by intro s; cases k <;> rfl
    simp [this]

/-- A detached thread that ends carries out by itself everything it has asked for. -/
theorem detached_thread_completes {n : Nat} {ls : List Label} {s : St} {h : List Event} (hr : run step (init n) ls = some (s, h)) {u : Nat}
    (hc : created u h) (hp : s.pc u = .idle) (hover : (s.d u).over = true) (hd : dropped u h = begun u h) :
    ∃ ls' s' es, (∀ l ∈ ls', l.who = u) ∧ run step s ls' = some (s', es) ∧ Event.gone u ∈ es ∧ effects u (h ++ es) = asked u (h ++ es) := by
  have hi := inv_run hr
  have hD := hi.data u
  have hl := hD.lib'.mp hc
  have h1 := hD.refs
  have hobj : (s.d u).obj = false := by
    cases ho : (s.d u).obj with
    | false => rfl
    | true => rw [ho] at h1; simp only [if_true] at h1; omega
  have hcop : (s.d u).copies = 0 := by omega
  obtain ⟨x, hx⟩ : ∃ x : Data, x = { s.d u with set := false, own := false } := ⟨_, rfl⟩
  have hfree : x.free = true := by subst hx; simp [Data.free, hobj, hcop]
  have hstep : step s (.leave u) = some ({ s with d := upd s.d u { x with left := some (jobs x) }, pc := upd s.pc u (.dtor u .bye) }, [.finish u]) := by
    simp only [step, Label.who, hp, stepIdle]
    rw [if_pos hover]
    subst hx
    simp only [release]
    rw [if_pos hfree]
  obtain ⟨s', h2, h3⟩ := destructor_completes (s := { s with d := upd s.d u { x with left := some (jobs x) }, pc := upd s.pc u (.dtor u .bye) })
    (u := u) (w := u) (k := .bye) (js := jobs x) (by simp [upd]) (by simp [upd])
  have hrun : run step s (.leave u :: List.replicate ((jobs x).length + 1) (.go u)) = some (s', [.finish u] ++ ((jobs x).map (.eff u u) ++ [.gone u])) := by
    rw [run, hstep]
    dsimp only
    rw [h2]
    rfl
  refine ⟨_, s', _, ?_, hrun, by simp, ?_⟩
  · intro l hl
    rcases List.mem_cons.mp hl with rfl | hl
    · rfl
    · rw [List.eq_of_mem_replicate hl]; rfl
  · have hfull := run_append hr hrun
    have hg : Event.gone u ∈ h ++ ([.finish u] ++ ((jobs x).map (.eff u u) ++ [.gone u])) := by simp
    have hc' : created u (h ++ ([.finish u] ++ ((jobs x).map (.eff u u) ++ [.gone u]))) := hc.imp fun w hw => List.mem_append_left _ hw
    have hi' := inv_run hfull
    have h4 := effects_lib hi' ((hi'.data u).lib'.mp hc')
    have hpref : effects u (h ++ ([.finish u] ++ ((jobs x).map (.eff u u) ++ [.gone u]))) = jobs x := by
      have he : ∀ js : List Eff, effects u (js.map (Event.eff u u)) = js := by
        intro js
        induction js with
        | nil => rfl
        | cons f js ih => simp [effects, ih]
      have h0 : effects u h = [] := hD.none' (hi.left_none hp hl).2
      simp [effects_append, effects, h0, he]
    have hasked : asked u (h ++ ([.finish u] ++ ((jobs x).map (.eff u u) ++ [.gone u]))) = jobs x := by
      have hj : jobs x = jobs (s.d u) := by subst hx; rfl
      have e1 : ∀ js : List Eff, askedNotify u (js.map (Event.eff u u)) = [] ∧ askedReady u (js.map (Event.eff u u)) = [] := by
        intro js
        induction js with
        | nil => exact ⟨rfl, rfl⟩
        | cons f js ih => simp [askedNotify, askedReady, ih.1, ih.2]
      have := asked_eq hi hl
      simp only [asked] at this
      simp [asked, askedNotify_append, askedReady_append, askedNotify, askedReady, (e1 _).1, (e1 _).2, this, hj]
    rw [hpref, hasked]

/-! ## Mutexes and promises -/

/-- In every run, a mutex given to `notify_all_at_thread_exit` stays locked until the effect of that call, which unlocks
it, except that a thread not created by the library may unlock it at once. -/
theorem mutex_stays_locked_partial {n : Nat} {ls : List Label} {s : St} {h : List Event} (hr : run step (init n) ls = some (s, h)) :
    Accepts (nextM true) MSpec.start h :=
  simulation (R := MR) (fun _ _ _ _ _ hr hs => mstep_ok hr hs) (mr_init n) hr

/-- In every run in which no promise that has a result is given another one, the result becomes visible when the effect
is carried out and every `get` gives it. -/
theorem promise_result_partial {n : Nat} {ls : List Label} {s : St} {h : List Event} (hr : run step (init n) ls = some (s, h)) :
    Accepts (nextP true) (fun _ => .unset) h :=
  simulation (R := PR) (fun _ _ _ _ _ hr hs => pstep_ok hr hs) (pr_init n) hr

/-- Client 0 starts thread 1, which locks mutex 0, asks for its unlocking with the notification of condition variable 0
and puts 7 into promise 0; the object is detached; the thread ends. -/
def tidy : List Label :=
  [.start 0, .lock 1 0, .notifyExit 1 0 0, .setExit 1 0 (.val 7), .detach 0 1, .go 0, .ret 1, .leave 1, .go 1, .go 1, .go 1, .go 1, .lock 0 0, .get 0 0]

/-- In this run everything works as documented. -/
example : ∃ s h, run step (init 1) tidy = some (s, h) ∧ created 1 h ∧ Event.gone 1 ∈ h ∧ returned 1 h = begun 1 h ∧
    effects 1 h = [.unlock 0, .notify 0, .ready 0] ∧ Event.got 0 0 (.val 7) ∈ h ∧ Event.locked 0 0 ∈ h ∧
    Accepts (nextM false) MSpec.start h ∧ Accepts (nextP false) (fun _ => .unset) h :=
  ⟨_, _, rfl, ⟨0, by decide⟩, by decide, by decide, by decide, by decide, by decide, by decide, by decide⟩

/-- The hypotheses of `detached_thread_completes` are met after 7 steps of it. -/
example : ∃ s h, run step (init 1) (tidy.take 7) = some (s, h) ∧ created 1 h ∧ s.pc 1 = .idle ∧ (s.d 1).over = true ∧
    dropped 1 h = begun 1 h ∧ asked 1 h ≠ [] :=
  ⟨_, _, rfl, ⟨0, by decide⟩, by decide, by decide, by decide, by decide⟩

/-! ## What the code does not do -/

/-- A thread that uses both functions and ends while the thread object refers to it. -/
def kept : List Label :=
  [.start 0, .lock 1 0, .notifyExit 1 0 0, .setExit 1 0 (.val 7), .ret 1, .leave 1, .go 1]

theorem stuck {s : St} {l : Label} (h : ∀ u, u ≠ 0 → s.pc u = .gone ∨ s.pc u = .unborn) (hl : l.who ≠ 0) : step s l = none := by
  unfold step
  rcases h _ hl with h | h <;> rw [h]

/-- The thread is gone, but as the thread object still refers to it nothing of what was to be done at its exit has been
done, and nothing will be unless client 0 gives up the object: a client that waits for the mutex, or for the result,
before it joins the thread waits for ever, as nobody else can move. -/
theorem object_delays_effects : ∃ s h, run step (init 1) kept = some (s, h) ∧ Event.gone 1 ∈ h ∧ asked 1 h = [.unlock 0, .notify 0, .ready 0] ∧
    effects 1 h = [] ∧ step s (.lock 0 0) = none ∧ step s (.get 0 0) = none ∧ ∀ l : Label, l.who ≠ 0 → step s l = none := by
  refine ⟨_, _, rfl, by decide, by decide, by decide, by decide, by decide, fun l hl => stuck (fun u hu => ?_) hl⟩
  match u with
  | 0 => exact absurd rfl hu
  | 1 => exact Or.inl rfl
  | u + 2 =>
    refine Or.inr ?_
    simp [run, step, Label.who, stepIdle, init, upd, release, finishUp, defer, plain, Data.created, Data.free]

/-- The mutex is then unlocked by the thread that gives up the object, not by the thread that has locked it. -/
theorem unlocked_by_another_thread : ∃ ls s h, run step (init 1) ls = some (s, h) ∧ Event.locked 1 0 ∈ h ∧ Event.eff 0 1 (.unlock 0) ∈ h :=
  ⟨kept ++ [.join 0 1, .joinEnd 0, .go 0, .go 0, .go 0, .go 0, .get 0 0], _, _, rfl, by decide, by decide⟩

/-- Whatever holds another reference delays the effects as well, even when the thread has been joined. -/
theorem reference_delays_effects : ∃ ls s h, run step (init 1) ls = some (s, h) ∧ Event.gone 1 ∈ h ∧ Event.ret 0 1 ∈ h ∧
    asked 1 h = [.unlock 0, .notify 0, .ready 0] ∧ effects 1 h = [] :=
  ⟨.start 0 :: .copy 0 1 :: kept.tail ++ [.join 0 1, .joinEnd 0, .go 0], _, _, rfl, by decide, by decide, by decide, by decide⟩

/-- A mutex that a thread not created by the library, but with thread data, has given to `notify_all_at_thread_exit` … -/
theorem external_mutex_lost : ∃ ls s h, run step (init 1) ls = some (s, h) ∧ Event.reg 0 0 0 ∈ h ∧ Event.gone 0 ∈ h ∧
    s.mx 0 = .handed 0 ∧ (s.d 0).lib = false :=
  ⟨[.mkData 0, .lock 0 0, .notifyExit 0 0 0, .ret 0, .leave 0, .go 0], _, _, rfl, by decide, by decide, by decide, by decide⟩

/-- … stays locked for ever, in every continuation. -/
theorem external_mutex_never_free {n : Nat} {ls : List Label} {s : St} {h : List Event} (hr : run step (init n) ls = some (s, h)) {m w : Nat}
    (hm : s.mx m = .handed w) (hw : (s.d w).lib = false) (hn : w < s.n) {ls' : List Label} {s' : St} {es : List Event}
    (hr' : run step s ls' = some (s', es)) : s'.mx m = .handed w := by
  -- the relation to the contract of mutexes holds along every run
  have hrel : ∀ {ls s h}, run step (init n) ls = some (s, h) → ∃ σ, MR s σ := by
    intro ls s h hr
    exact run_inv (fun s => ∃ σ, MR s σ) (fun s l s' es ⟨σ, hσ⟩ hs => by
      have hf := mstep_ok hσ hs
      clear hσ hs
      induction es generalizing σ with
      | nil => exact ⟨σ, hf⟩
      | cons e es ih =>
        simp only [Follows] at hf
        cases hn : nextM true σ e with
        | ok σ' => rw [hn] at hf; exact ih σ' hf
        | illegal => rw [hn] at hf; exact hf.elim
        | undefined =>
          exfalso
          unfold nextM at hn
          split at hn <;> (try split at hn) <;> cases hn) ⟨_, mr_init n⟩ hr
  have key := run_inv (fun s : St => (∃ σ, MR s σ) ∧ s.mx m = .handed w ∧ (s.d w).lib = false ∧ w < s.n)
    (fun s l s' es ⟨⟨σ, hσ⟩, h1, h2, h3⟩ hs => by
      obtain ⟨hr, h, hi⟩ := hσ
      have hex : ∃ σ, MR s' σ := by
        have hf := mstep_ok ⟨hr, h, hi⟩ hs
        clear hr hi hs
        induction es generalizing σ with
        | nil => exact ⟨σ, hf⟩
        | cons e es ih =>
          simp only [Follows] at hf
          cases hn : nextM true σ e with
          | ok σ' => rw [hn] at hf; exact ih σ' hf
          | illegal => rw [hn] at hf; exact hf.elim
          | undefined =>
            exfalso
            unfold nextM at hn
            split at hn <;> (try split at hn) <;> cases hn
      refine ⟨hex, ?_⟩
      have hrelease : ∀ {u x y k}, (release s y u x k).mx = s.mx ∧ (release s y u x k).n = s.n ∧
          (x.lib = (s.d u).lib → ((release s y u x k).d w).lib = (s.d w).lib) := by
        intro u x y k
        unfold release
        split <;> refine ⟨rfl, rfl, fun hl => ?_⟩ <;> simp only [upd] <;> split <;> simp_all
      unfold step at hs
      split at hs
      · next hp =>
        cases l with
        | start v =>
          simp only [stepIdle, Option.some.injEq, Prod.mk.injEq] at hs
          obtain ⟨rfl, _⟩ := hs
          refine ⟨h1, ?_, by dsimp only; omega⟩
          simp only [upd_other _ _ (show w ≠ s.n by omega)]
          exact h2
        | mkData v =>
          simp only [stepIdle] at hs
          split at hs <;> cases hs
          exact ⟨h1, by simp only [upd]; split <;> simp_all, h3⟩
        | lock v k =>
          simp only [stepIdle] at hs
          split at hs <;> cases hs
          next hk =>
          have : m ≠ k := by rintro rfl; rw [h1] at hk; cases hk
          exact ⟨by simp only [upd_other _ _ this]; exact h1, h2, h3⟩
        | unlock v k =>
          simp only [stepIdle] at hs
          split at hs <;> cases hs
          next hk =>
          have : m ≠ k := by rintro rfl; rw [h1] at hk; cases hk
          exact ⟨by simp only [upd_other _ _ this]; exact h1, h2, h3⟩
        | notifyExit v c k =>
          simp only [stepIdle] at hs
          split at hs
          case isFalse => cases hs
          next hk =>
          have : m ≠ k := by rintro rfl; rw [h1] at hk; cases hk
          split at hs
          · split at hs <;> cases hs
            · exact ⟨by simp only [upd_other _ _ this]; exact h1, by simp only [upd]; split <;> simp_all, h3⟩
            · exact ⟨by simp only [upd_other _ _ this]; exact h1, h2, h3⟩
          · cases hs
            exact ⟨by simp only [upd_other _ _ this]; exact h1, h2, h3⟩
        | setExit v p r =>
          simp only [stepIdle] at hs
          split at hs
          case isFalse => cases hs
          split at hs
          · cases hs; exact ⟨h1, h2, h3⟩
          · split at hs <;> cases hs
            · exact ⟨h1, by simp only [upd]; split <;> simp_all, h3⟩
            · exact ⟨h1, h2, h3⟩
        | setNow v p r =>
          simp only [stepIdle] at hs
          split at hs
          case isFalse => cases hs
          split at hs <;> cases hs <;> exact ⟨h1, h2, h3⟩
        | destroy v p =>
          simp only [stepIdle] at hs
          split at hs <;> cases hs
          exact ⟨h1, h2, h3⟩
        | get v p =>
          simp only [stepIdle] at hs
          split at hs <;> cases hs
          exact ⟨h1, h2, h3⟩
        | ret v =>
          simp only [stepIdle] at hs
          split at hs <;> cases hs
          exact ⟨h1, by simp only [upd]; split <;> simp_all, h3⟩
        | leave v =>
          simp only [stepIdle] at hs
          split at hs <;> cases hs
          exact ⟨by rw [hrelease.1]; exact h1, by refine (hrelease.2.2 ?_).trans h2; rfl, by rw [hrelease.2.1]; exact h3⟩
        | join v u =>
          simp only [stepIdle] at hs
          split at hs <;> cases hs
          exact ⟨h1, h2, h3⟩
        | detach v u =>
          simp only [stepIdle] at hs
          split at hs <;> cases hs
          exact ⟨by rw [hrelease.1]; exact h1, by refine (hrelease.2.2 ?_).trans h2; rfl, by rw [hrelease.2.1]; exact h3⟩
        | copy v u =>
          simp only [stepIdle] at hs
          split at hs <;> cases hs
          exact ⟨h1, by simp only [upd]; split <;> simp_all, h3⟩
        | uncopy v u =>
          simp only [stepIdle] at hs
          split at hs <;> cases hs
          exact ⟨by rw [hrelease.1]; exact h1, by refine (hrelease.2.2 ?_).trans h2; rfl, by rw [hrelease.2.1]; exact h3⟩
        | joinEnd v => cases hs
        | go v => cases hs
      · split at hs
        · split at hs <;> cases hs
          exact ⟨by rw [hrelease.1]; exact h1, by refine (hrelease.2.2 ?_).trans h2; rfl, by rw [hrelease.2.1]; exact h3⟩
        · cases hs
      · next u k hp =>
        split at hs
        · next v f js hleft =>
          cases hs
          obtain ⟨p1, p2, p3⟩ := perform_pc { s with d := upd s.d u { s.d u with left := some js } } f
          have hl := hi.lib_of_left hleft
          refine ⟨?_, by rw [p3]; simp only [upd]; split <;> simp_all, by rw [p2]; exact h3⟩
          cases f with
          | unlock k =>
            have hk := (hr.pend u).mem k (by simp [pend, hl, hleft])
            have : m ≠ k := by
              rintro rfl
              rw [h1] at hk
              cases hk
              rw [h2] at hl
              cases hl
            simp only [perform, upd_other _ _ this]
            exact h1
          | notify c => exact h1
          | ready p => exact h1
        · simp only [Option.some.injEq] at hs
          cases k <;> simp only [finishUp, Prod.mk.injEq] at hs <;> obtain ⟨rfl, _⟩ := hs <;> exact ⟨h1, h2, h3⟩
        · cases hs
      · next k hp =>
        split at hs
        · simp only [Option.some.injEq] at hs
          cases k <;> simp only [finishUp, Prod.mk.injEq] at hs <;> obtain ⟨rfl, _⟩ := hs <;> exact ⟨h1, h2, h3⟩
        · cases hs
      · cases hs)
    ⟨hrel hr, hm, hw, hn⟩ hr'
  exact key.2.1

/-- Without thread data the mutex is unlocked at once and the condition variable is never notified. -/
theorem external_unlocked_at_once : ∃ ls s h, run step (init 1) ls = some (s, h) ∧ h = [.locked 0 0, .reg 0 0 0, .unlocked 0 0] ∧
    ¬ Accepts (nextM false) MSpec.start h :=
  ⟨[.lock 0 0, .notifyExit 0 0 0], _, _, rfl, by decide, by decide⟩

/-- A result put into a promise by a thread not created by the library never becomes visible: the promise is destroyed,
the thread is gone, no other thread exists, and `get` would block. -/
theorem external_result_lost : ∃ ls s h, run step (init 1) ls = some (s, h) ∧ Event.stored 0 0 (.val 7) ∈ h ∧ Event.gone 0 ∈ h ∧ (s.ps 0).done = false ∧
    (s.ps 0).alive = false :=
  ⟨[.mkData 0, .setExit 0 0 (.val 7), .destroy 0 0, .ret 0, .leave 0, .go 0], _, _, rfl, by decide, by decide, by decide, by decide⟩

/-- A promise that has a result takes another one without `promise_already_satisfied`, and the first result is lost. -/
theorem second_result_replaces_first : ∃ ls s h, run step (init 1) ls = some (s, h) ∧ Event.stored 1 0 (.val 1) ∈ h ∧ Event.stored 1 0 (.val 2) ∈ h ∧
    Event.got 0 0 (.val 2) ∈ h ∧ ¬ Accepts (nextP false) (fun _ => .unset) h :=
  ⟨[.start 0, .setExit 1 0 (.val 1), .setExit 1 0 (.val 2), .ret 1, .leave 1, .go 1, .join 0 1, .joinEnd 0, .go 0, .go 0, .go 0, .get 0 0],
    _, _, rfl, by decide, by decide, by decide, by decide⟩

/-- `set_value` after `set_value_at_thread_exit` succeeds too, and makes its result visible before the end of the thread. -/
theorem set_value_overrides : ∃ ls s h, run step (init 1) ls = some (s, h) ∧ Event.stored 1 0 (.val 1) ∈ h ∧ Event.setNow 0 0 (.val 2) ∈ h ∧
    Event.got 0 0 (.val 2) ∈ h ∧ Event.finish 1 ∉ h :=
  ⟨[.start 0, .setExit 1 0 (.val 1), .setNow 0 0 (.val 2), .get 0 0], _, _, rfl, by decide, by decide, by decide, by decide⟩

/-- `set_exception_at_thread_exit` replaces the exception of a state that is ready: a `shared_future` gives one exception
and later another one. -/
theorem ready_result_changes : ∃ ls s h, run step (init 1) ls = some (s, h) ∧
    h = [.start 0 1, .setNow 0 0 (.exc 1), .got 0 0 (.exc 1), .stored 1 0 (.exc 2), .got 0 0 (.exc 2)] :=
  ⟨[.start 0, .setNow 0 0 (.exc 1), .get 0 0, .setExit 1 0 (.exc 2), .get 0 0], _, _, rfl, by decide⟩

/-- A value put into a promise that has an exception is accepted and ignored. -/
theorem value_ignored : ∃ ls s h, run step (init 1) ls = some (s, h) ∧
    h = [.start 0 1, .stored 1 0 (.exc 1), .setNow 0 0 (.val 2), .got 0 0 (.exc 1)] :=
  ⟨[.start 0, .setExit 1 0 (.exc 1), .setNow 0 0 (.val 2), .get 0 0], _, _, rfl, by decide⟩

end Verif.AtExit
