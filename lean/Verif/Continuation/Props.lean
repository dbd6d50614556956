import Verif.Continuation.Sim
/-! # Properties of continuations and deferred futures -/

set_option linter.unusedSimpArgs false

namespace Verif.Continuation

/-- No thread fails to start and no executor refuses work. -/
def NoFailure (ls : List Label) : Prop := ∀ l ∈ ls, ∀ t, l ≠ .fail t

/-- **C35, C38.** Every history of any number of threads and futures conforms to the specification, even if threads fail to start or executors refuse work. -/
theorem history_conforms (ls : List Label) (s : State) (es : List Event) (h : run step init ls = some (s, es)) : Accepts (next false) Spec.init es :=
  simulation (R false) (fun _ _ _ _ _ hR hs => sim (by simp) hR hs) (s := init) (rel_init false) h

/-- **C35, C38.** If nothing fails to start, no call throws and no outcome is ever replaced. -/
theorem history_conforms_strict (ls : List Label) (s : State) (es : List Event) (h : run step init ls = some (s, es)) (hl : NoFailure ls) : Accepts (next true) Spec.init es :=
  simulation_on (fun l : Label => ∀ t, l ≠ .fail t) (R true) (fun _ _ _ _ _ hP hR hs => sim (fun _ => hP) hR hs) (s := init) hl (rel_init true) h

/-- A history with all four kinds of continuation, a chain of deferred ones, and a `then` after readiness. -/
example : ∃ ls s es, run step init ls = some (s, es) ∧ NoFailure ls ∧ .began 0 1 ∈ es ∧ .began 5 2 ∈ es ∧ .began 7 3 ∈ es ∧ .began 4 6 ∈ es ∧ .waited 4 6 (.value 9) ∈ es ∧ (∀ t, s.stk t = []) ∧ s.todo = [] := by
  refine ⟨[.op 0 .promise, .op 0 (.attach 0 .sync), .go 0, .op 0 (.attach 0 .async), .go 0, .op 0 (.set 0 (.value 1)), .go 0, .op 0 (.attach 0 .executor), .go 0, .go 0, .finish 0 (.value 2), .go 0, .go 0,
    .begin 5 2, .finish 5 (.exc 3), .go 5, .go 0, .begin 7 3, .finish 7 (.value 0), .go 7, .op 4 .defer, .op 4 (.attach 4 .deferred), .go 4, .op 4 (.attach 5 .deferred), .go 4, .op 4 (.wait 6), .go 4, .go 4,
    .go 4, .finish 4 (.value 7), .go 4, .go 4, .go 4, .finish 4 (.value 8), .go 4, .go 4, .go 4, .finish 4 (.value 9), .go 4, .go 4], _, _, rfl, ?_, ?_, ?_, ?_, ?_, ?_, ?_, rfl⟩
  · intro l hl t e; subst e; revert hl; simp
  · decide
  · decide
  · decide
  · decide
  · decide
  · intro t
    by_cases h0 : t = 0
    · subst h0; rfl
    · by_cases h4 : t = 4
      · subst h4; rfl
      · by_cases h5 : t = 5
        · subst h5; rfl
        · by_cases h7 : t = 7
          · subst h7; rfl
          · simp [upd_apply, init, State.complete, h0, h4, h5, h7]

/-! ## Histories -/

/-- How often function `c` has been called. -/
def calls (c : Nat) (es : List Event) : Nat := es.countP fun e => match e with
  | .began _ d => d == c
  | _ => false

/-- State `i` has become ready. -/
def BecameReady (i : Nat) (es : List Event) : Prop := ∃ t o, .ready t i o ∈ es ∨ .ended t i o ∈ es

/-- The specification never gives up on a history. -/
theorem always_known {strict : Bool} {σ : Spec} {es : List Event} (h : Accepts (next strict) σ es) : ∃ σ', specState (next strict) σ es = some σ' := by
  induction es generalizing σ with
  | nil => exact ⟨σ, rfl⟩
  | cons e es ih =>
    simp only [Accepts] at h
    cases hn : next strict σ e with
    | ok σ' =>
      simp only [hn] at h
      obtain ⟨σ'', hσ⟩ := ih h
      exact ⟨σ'', by simp [specState, hn, hσ]⟩
    | illegal => simp [hn] at h
    | undefined =>
      exfalso
      cases e <;> simp only [next] at hn <;> (repeat' split at hn) <;> cases hn

/-- What the specification remembers of a history. -/
structure Mem (σ : Spec) (es : List Event) : Prop where
  calls : ∀ c, calls c es = if σ.begun c then 1 else 0
  ready : ∀ i, (σ.out i).isSome ↔ BecameReady i es
  kinds : ∀ t c p pol, .attached t c p pol ∈ es → σ.kind c = .cont p pol ∧ c < σ.n
  made : ∀ t c k, .created t c k ∈ es → σ.kind c = k ∧ c < σ.n
  waits : ∀ t i, .inWait i ∈ σ.busy t → .waits t i ∈ es
  fresh : ∀ c, σ.n ≤ c → σ.begun c = false

theorem calls_append (c : Nat) (a b : List Event) : Verif.Continuation.calls c (a ++ b) = Verif.Continuation.calls c a + Verif.Continuation.calls c b := by
  simp [Verif.Continuation.calls, List.countP_append]

theorem BecameReady.append {i : Nat} {es : List Event} {e : Event} : BecameReady i (es ++ [e]) ↔ BecameReady i es ∨ BecameReady i [e] := by
  simp only [BecameReady, List.mem_append]
  constructor
  · rintro ⟨t, o, (h | h) | (h | h)⟩
    · exact .inl ⟨t, o, .inl h⟩
    · exact .inr ⟨t, o, .inl h⟩
    · exact .inl ⟨t, o, .inr h⟩
    · exact .inr ⟨t, o, .inr h⟩
  · rintro (⟨t, o, h | h⟩ | ⟨t, o, h | h⟩)
    · exact ⟨t, o, .inl (.inl h)⟩
    · exact ⟨t, o, .inr (.inl h)⟩
    · exact ⟨t, o, .inl (.inr h)⟩
    · exact ⟨t, o, .inr (.inr h)⟩

theorem mem_step {strict : Bool} {σ σ' : Spec} {es : List Event} {e : Event} (h : Mem σ es) (hn : next strict σ e = .ok σ') : Mem σ' (es ++ [e]) := by
  have h1 := h.calls
  have h2 := h.ready
  have h3 := h.kinds
  have h4 := h.made
  have h5 := h.waits
  have h6 := h.fresh
  have key : ∀ {σ' : Spec}, (∀ c, Verif.Continuation.calls c es + Verif.Continuation.calls c [e] = if σ'.begun c then 1 else 0) → (∀ i, (σ'.out i).isSome ↔ BecameReady i es ∨ BecameReady i [e]) →
      (∀ t c p pol, .attached t c p pol ∈ es ∨ .attached t c p pol = e → σ'.kind c = .cont p pol ∧ c < σ'.n) → (∀ t c k, .created t c k ∈ es ∨ .created t c k = e → σ'.kind c = k ∧ c < σ'.n) →
      (∀ t i, .inWait i ∈ σ'.busy t → .waits t i ∈ es ∨ .waits t i = e) → (∀ c, σ'.n ≤ c → σ'.begun c = false) → Mem σ' (es ++ [e]) := by
    intro σ' a1 a2 a3 a4 a5 a6
    refine ⟨?_, ?_, ?_, ?_, ?_, a6⟩
    · intro c; rw [calls_append]; exact a1 c
    · intro i; rw [BecameReady.append]; exact a2 i
    · intro t c p pol hm; exact a3 t c p pol (by simpa using hm)
    · intro t c k hm; exact a4 t c k (by simpa using hm)
    · intro t i hm; simpa using a5 t i hm
  cases e <;> simp only [next] at hn <;> (repeat' split at hn) <;> cases hn <;> apply key <;>
    simp only [Verif.Continuation.calls, List.countP_cons, List.countP_nil, BecameReady, List.mem_singleton, upd_apply, reduceCtorEq, or_false, false_or, exists_false, Event.ready.injEq,
      Event.ended.injEq, Event.attached.injEq, Event.created.injEq, Event.waits.injEq] at * <;> grind

theorem mem_init : Mem Spec.init [] := by
  constructor <;> simp [Spec.init, Verif.Continuation.calls, BecameReady]

theorem mem_of_run {strict : Bool} {σ σ' : Spec} {hist es : List Event} (h : Mem σ hist) (hs : specState (next strict) σ es = some σ') : Mem σ' (hist ++ es) := by
  induction es generalizing σ hist with
  | nil => simp only [specState, Option.some.injEq] at hs; subst hs; simpa using h
  | cons e es ih =>
    simp only [specState] at hs
    cases hn : next strict σ e <;> simp only [hn] at hs
    · have := ih (mem_step h hn) hs
      simpa using this
    · cases hs
    · cases hs

/-- The state of the specification at a point of a history. -/
theorem at_point {strict : Bool} {es₁ es₂ : List Event} {e : Event} (h : Accepts (next strict) Spec.init (es₁ ++ e :: es₂)) :
    ∃ σ σ', specState (next strict) Spec.init es₁ = some σ ∧ Mem σ es₁ ∧ next strict σ e = .ok σ' := by
  obtain ⟨σ'', h1⟩ := always_known h
  rw [specState_append] at h1
  cases hσ : specState (next strict) Spec.init es₁ with
  | none => rw [hσ] at h1; cases h1
  | some σ =>
    rw [hσ] at h1
    simp only [Option.bind_some, specState] at h1
    cases hn : next strict σ e with
    | ok σ' => exact ⟨σ, σ', rfl, by simpa using mem_of_run mem_init hσ, hn⟩
    | undefined => rw [hn] at h1; cases h1
    | illegal => rw [hn] at h1; cases h1

/-! ## C35 -/

/-- **C35 (at most once).** No function is called twice, whatever fails to start. -/
theorem called_at_most_once (ls : List Label) (s : State) (es : List Event) (h : run step init ls = some (s, es)) (c : Nat) : calls c es ≤ 1 := by
  obtain ⟨σ, hσ⟩ := always_known (history_conforms ls s es h)
  have h1 := (mem_of_run mem_init hσ).calls c
  simp only [List.nil_append] at h1
  rw [h1]
  split <;> omega

/-- **C35 (after readiness).** When the function of a continuation is called, its antecedent has become ready. -/
theorem called_after_readiness (ls : List Label) (s : State) (es₁ es₂ : List Event) (t u c p : Nat) (pol : Pol) (h : run step init ls = some (s, es₁ ++ .began t c :: es₂)) (ha : .attached u c p pol ∈ es₁) :
    BecameReady p es₁ := by
  obtain ⟨σ, σ', _, hm, hn⟩ := at_point (history_conforms ls s _ h)
  simp only [next] at hn
  split at hn
  · rename_i hc
    have h1 := hc.2.2
    simp only [mayBegin, (hm.kinds u c p pol ha).1, Bool.and_eq_true] at h1
    exact (hm.ready p).mp h1.1
  · cases hn

/-- Everything has been done: no thread is in a call or in a function, every thread that was started has run, and executors have nothing left. -/
def Quiescent (s : State) : Prop := (∀ t, s.stk t = []) ∧ s.todo = []

/-- **C35 (exactly once).** If nothing fails to start, then whenever everything has been done, each continuation (other than a deferred one) whose antecedent is ready has been called exactly once,
whether it was attached before or after readiness, or at the same time. -/
theorem called_exactly_once (ls : List Label) (s : State) (es : List Event) (h : run step init ls = some (s, es)) (hl : NoFailure ls) (hq : Quiescent s) (t c p : Nat) (pol : Pol)
    (ha : .attached t c p pol ∈ es) (hd : pol ≠ .deferred) (hr : BecameReady p es) : calls c es = 1 := by
  obtain ⟨σ, hσ⟩ := always_known (history_conforms_strict ls s es h hl)
  obtain ⟨own, hR⟩ := simulation_state_on (fun l : Label => ∀ t, l ≠ .fail t) (R true) (fun _ _ _ _ _ hP hR hs => sim (fun _ => hP) hR hs) (s := init) hl (rel_init true) h hσ
  have hm := mem_of_run mem_init hσ
  simp only [List.nil_append] at hm
  have hk := (hm.kinds t c p pol ha).1
  rw [hR.kind] at hk
  have ho := (hm.ready p).mpr hr
  rw [hR.out] at ho
  rw [hm.calls]
  rcases hR.kept rfl c p pol hk hd with h1 | h1 | h1 | h1
  · rw [h1]; rfl
  · rw [hq.2] at h1; cases h1
  · obtain ⟨u, hu⟩ := Option.isSome_iff_exists.mp h1
    have := (hR.owns.mem u _).mpr hu
    rw [hq.1] at this
    cases this
  · rw [hR.contsDone p ho] at h1; cases h1

/-- **C35 (progress).** A thread that is launching continuations, and a thread or an executor that has a function to run, can always go on. -/
theorem launching_goes_on (ls : List Label) (s : State) (es : List Event) (h : run step init ls = some (s, es)) (t : Nat) (l : List Nat) (w : Why) (rest : List Frame) (hst : s.stk t = .launch l w :: rest) :
    ∃ s' es', step s (.go t) = some (s', es') := by
  obtain ⟨σ, hσ⟩ := always_known (history_conforms ls s es h)
  obtain ⟨own, hR⟩ := simulation_state (R false) (fun _ _ _ _ _ hR hs => sim (by simp) hR hs) (s := init) (rel_init false) h hσ
  cases l with
  | nil => exact ⟨_, _, by simp only [step, hst, go]; rfl⟩
  | cons c l =>
    obtain ⟨p, pol, hk, _⟩ := hR.launching c t ((hR.owns.mem t _).mp (by rw [hst]; simp [its, items]))
    cases pol <;> exact ⟨_, _, by simp only [step, hst, go, hk]; rfl⟩

/-! ## C38 -/

/-- **C38 (not before somebody waits).** When the function of a deferred future is called, the thread is in a call of `wait` or `get`. -/
theorem deferred_called_in_a_wait (ls : List Label) (s : State) (es₁ es₂ : List Event) (t u c : Nat) (h : run step init ls = some (s, es₁ ++ .began t c :: es₂))
    (ha : .created u c .deferred ∈ es₁ ∨ ∃ p, .attached u c p .deferred ∈ es₁) : ∃ i, .waits t i ∈ es₁ := by
  obtain ⟨σ, σ', _, hm, hn⟩ := at_point (history_conforms ls s _ h)
  simp only [next] at hn
  split at hn
  · rename_i hc
    have h1 := hc.2.2
    have h2 : wanted σ.kind c (σ.busy t) = true := by
      rcases ha with ha | ⟨p, ha⟩
      · simpa only [mayBegin, (hm.made u c _ ha).1] using h1
      · simp only [mayBegin, (hm.kinds u c p _ ha).1, Bool.and_eq_true] at h1
        simpa using h1.2
    cases hb : σ.busy t with
    | nil => rw [hb] at h2; cases h2
    | cons b bs =>
      rw [hb] at h2
      cases b with
      | inFn _ => cases h2
      | inWait i => exact ⟨i, hm.waits t i (by rw [hb]; simp)⟩
  · cases hn

/-- **C38 (only after it has finished).** When a wait returns, the state has become ready. -/
theorem wait_returns_after_readiness (ls : List Label) (s : State) (es₁ es₂ : List Event) (t i : Nat) (o : Out) (h : run step init ls = some (s, es₁ ++ .waited t i o :: es₂)) : BecameReady i es₁ := by
  obtain ⟨σ, σ', _, hm, hn⟩ := at_point (history_conforms ls s _ h)
  simp only [next] at hn
  split at hn
  · split at hn
    · rename_i hc
      exact (hm.ready i).mp (by rw [hc.2]; rfl)
    · cases hn
  · cases hn

/-- **C38 (a ready future).** A thread that waits for a state that has become ready can return at once. -/
theorem wait_on_ready_returns (ls : List Label) (s : State) (es : List Event) (h : run step init ls = some (s, es)) (t i : Nat) (rest : List Frame) (hst : s.stk t = .wait i :: rest) (hr : BecameReady i es) :
    ∃ s' o, step s (.go t) = some (s', [.waited t i o]) := by
  obtain ⟨σ, hσ⟩ := always_known (history_conforms ls s es h)
  obtain ⟨own, hR⟩ := simulation_state (R false) (fun _ _ _ _ _ hR hs => sim (by simp) hR hs) (s := init) (rel_init false) h hσ
  have hm := mem_of_run mem_init hσ
  simp only [List.nil_append] at hm
  have ho := (hm.ready i).mpr hr
  rw [hR.out] at ho
  obtain ⟨o, ho⟩ := Option.isSome_iff_exists.mp ho
  have hno : (s.node i).kind ≠ .promise → σ.begun i = true := by
    intro hk
    cases hb : σ.begun i with
    | true => rfl
    | false => rw [hR.notYet i hk hb] at ho; cases ho
  have hd : (s.node i).deferred = false := by
    cases hd : (s.node i).deferred with
    | false => rfl
    | true =>
      obtain ⟨h1, _, h2⟩ := hR.deferred i hd
      rw [hno (by rcases h2 with h2 | ⟨_, h2⟩ <;> rw [h2] <;> simp)] at h1
      cases h1
  have hlk : (s.node i).locked = false := by
    rw [hR.locked]
    cases hp : own (.p i) with
    | none => rfl
    | some u =>
      obtain ⟨⟨p, h2⟩, h1, _⟩ := hR.waiting i u hp
      rw [hno (by rw [h2]; simp)] at h1
      cases h1
  exact ⟨_, o, by simp only [step, hst, go, hlk, hd, ho]; rfl⟩

/-- The flag of a deferred future is cleared only when its function is called. -/
theorem called_if_cleared (ls : List Label) (s : State) (es : List Event) (h : run step init ls = some (s, es)) (i : Nat) (hk : (s.node i).kind = .deferred) (hd : (s.node i).deferred = false) :
    ∃ t, .began t i ∈ es := by
  have h0 : ∀ i, (init.node i).kind = .deferred → (init.node i).deferred = false → ∃ t, Event.began t i ∈ ([] : List Event) := by simp [init]
  have := run_inv_hist (hist := []) (fun s hist => ∀ i, (s.node i).kind = .deferred → (s.node i).deferred = false → ∃ t, Event.began t i ∈ hist) ?_ h0 h
  · simpa using this i hk hd
  · intro s l s' hist es' hJ hs j hk hd
    simp only [List.mem_append]
    have hJ' : (s.node j).kind = .deferred → (s.node j).deferred = false → ∃ t, Event.began t j ∈ hist ∨ Event.began t j ∈ es' := fun a b => by
      obtain ⟨t, ht⟩ := hJ j a b; exact ⟨t, .inl ht⟩
    cases l with
    | op t o =>
      simp only [step] at hs
      split at hs
      · cases o <;> simp only [doOp] at hs <;> (repeat' split at hs) <;> cases hs <;> (try simp only [State.complete, upd_apply] at hk hd) <;> (repeat' split at hk) <;> simp_all
      · cases hs
    | begin t c => simp only [step] at hs; split at hs <;> cases hs; exact hJ' hk hd
    | finish t o =>
      simp only [step] at hs
      split at hs <;> cases hs
      simp only [State.complete, upd_apply] at hk hd
      split at hk <;> simp_all
    | go t =>
      simp only [step] at hs
      unfold go at hs
      (repeat' split at hs) <;> try cases hs
      all_goals first | exact hJ' hk hd | skip
      · unfold execute at hs
        (repeat' split at hs) <;> cases hs <;> simp only [upd_apply] at hk hd <;> split at hk <;> simp_all
      · unfold execute at hs
        (repeat' split at hs) <;> cases hs <;> simp only [upd_apply] at hk hd <;> split at hk <;> simp_all
      · simp only [upd_apply] at hk hd
        split at hk <;> simp_all
    | fail t =>
      simp only [step] at hs
      unfold fail at hs
      (repeat' split at hs) <;> cases hs
      · exact hJ' hk hd
      · exact hJ' hk hd
      · simp only [State.complete, upd_apply] at hk hd
        split at hk <;> simp_all

theorem calls_pos {c t : Nat} {es : List Event} (h : .began t c ∈ es) : 0 < calls c es := by
  unfold calls
  rw [List.countP_pos_iff]
  exact ⟨_, h, by simp⟩

/-- **C38 (the wait runs the function).** A thread that waits for the deferred future of `async`, the function of which has not been called, calls it. -/
theorem wait_calls_the_deferred_function (ls : List Label) (s : State) (es : List Event) (h : run step init ls = some (s, es)) (t u i : Nat) (rest : List Frame) (hst : s.stk t = .wait i :: rest)
    (ha : .created u i .deferred ∈ es) (hc : calls i es = 0) : ∃ s', step s (.go t) = some (s', [.began t i]) := by
  obtain ⟨σ, hσ⟩ := always_known (history_conforms ls s es h)
  obtain ⟨own, hR⟩ := simulation_state (R false) (fun _ _ _ _ _ hR hs => sim (by simp) hR hs) (s := init) (rel_init false) h hσ
  have hm := mem_of_run mem_init hσ
  simp only [List.nil_append] at hm
  have hk := (hm.made u i _ ha).1
  rw [hR.kind] at hk
  have hd : (s.node i).deferred = true := by
    cases hd : (s.node i).deferred with
    | true => rfl
    | false =>
      obtain ⟨v, hv⟩ := called_if_cleared ls s es h i hk hd
      have := calls_pos hv
      omega
  have hlk : (s.node i).locked = false := by rw [hR.locked, (hR.deferred i hd).2.1]; rfl
  exact ⟨_, by simp only [step, hst, go, hlk, hd, execute, hk]; rfl⟩

/-- **C38 (a single execution serves everybody).** A deferred function is called at most once, however many threads wait. -/
theorem deferred_called_at_most_once (ls : List Label) (s : State) (es : List Event) (h : run step init ls = some (s, es)) (i u : Nat) (_ : .created u i .deferred ∈ es) : calls i es ≤ 1 :=
  called_at_most_once ls s es h i

/-- If nothing fails to start, an outcome never changes. -/
theorem outcome_kept {σ σ' : Spec} {es : List Event} {i : Nat} {o : Out} (h : specState (next true) σ es = some σ') (ho : σ.out i = some o) : σ'.out i = some o := by
  induction es generalizing σ with
  | nil => simp only [specState, Option.some.injEq] at h; subst h; exact ho
  | cons e es ih =>
    simp only [specState] at h
    cases hn : next true σ e with
    | ok τ =>
      rw [hn] at h
      refine ih h ?_
      cases e <;> simp only [next] at hn <;> (repeat' split at hn) <;> cases hn <;> grind
    | undefined => rw [hn] at h; cases h
    | illegal => rw [hn] at h; cases h

theorem waited_iff {strict : Bool} {σ σ' : Spec} {t i : Nat} {o : Out} (h : next strict σ (.waited t i o) = .ok σ') : σ.out i = some o ∧ σ'.out i = some o := by
  simp only [next] at h
  split at h
  · split at h
    · rename_i hc
      cases h
      exact ⟨hc.2, hc.2⟩
    · cases h
  · cases h

/-- **C35, C38 (one outcome).** If nothing fails to start, all waits for a state return the same outcome. -/
theorem waits_agree (ls : List Label) (s : State) (es₁ es₂ es₃ : List Event) (t u i : Nat) (o o' : Out) (h : run step init ls = some (s, es₁ ++ .waited t i o :: (es₂ ++ .waited u i o' :: es₃))) (hl : NoFailure ls) :
    o = o' := by
  obtain ⟨σ, σ', h1, _, h2⟩ := at_point (history_conforms_strict ls s _ h hl)
  have h' := history_conforms_strict ls s _ h hl
  rw [show es₁ ++ .waited t i o :: (es₂ ++ .waited u i o' :: es₃) = (es₁ ++ .waited t i o :: es₂) ++ .waited u i o' :: es₃ by simp] at h'
  obtain ⟨τ, τ', h3, _, h4⟩ := at_point h'
  rw [specState_append, h1] at h3
  simp only [Option.bind_some, specState, h2] at h3
  have := outcome_kept h3 (waited_iff h2).2
  rw [(waited_iff h4).1] at this
  exact (Option.some.inj this).symm

/-- ... and it is the one with which the state became ready. -/
theorem wait_returns_the_result (ls : List Label) (s : State) (es₁ es₂ es₃ : List Event) (t u i : Nat) (o o' : Out) (h : run step init ls = some (s, es₁ ++ .ended u i o :: (es₂ ++ .waited t i o' :: es₃))) (hl : NoFailure ls) :
    o' = o := by
  obtain ⟨σ, σ', h1, _, h2⟩ := at_point (history_conforms_strict ls s _ h hl)
  have h' := history_conforms_strict ls s _ h hl
  rw [show es₁ ++ .ended u i o :: (es₂ ++ .waited t i o' :: es₃) = (es₁ ++ .ended u i o :: es₂) ++ .waited t i o' :: es₃ by simp] at h'
  obtain ⟨τ, τ', h3, _, h4⟩ := at_point h'
  rw [specState_append, h1] at h3
  simp only [Option.bind_some, specState, h2] at h3
  have ho : σ'.out i = some o := by
    simp only [next] at h2
    split at h2
    · split at h2
      · cases h2; simp [upd_apply]
      · cases h2
    · cases h2
  have := outcome_kept h3 ho
  rw [(waited_iff h4).1] at this
  exact Option.some.inj this

/-- Two threads wait for a deferred future; the function is called once, and both get its result. -/
example : ∃ ls s es, run step init ls = some (s, es) ∧ NoFailure ls ∧ calls 0 es = 1 ∧ .waited 1 0 (.value 5) ∈ es ∧ .waited 2 0 (.value 5) ∈ es := by
  refine ⟨[.op 0 .defer, .op 1 (.wait 0), .op 2 (.wait 0), .go 2, .finish 2 (.value 5), .go 2, .go 1, .go 2], _, _, rfl, ?_, by decide, by decide, by decide⟩
  intro l hl t e; subst e; revert hl; simp

/-! ## What the code does not do -/

/-- **C35 fails:** a continuation attached with `launch::async` to a deferred future is never called. Nobody but the user can take a step, although a thread waits for the continuation. -/
theorem not_then_on_deferred : ∃ ls s es, run step init ls = some (s, es) ∧ .attached 0 1 0 .async ∈ es ∧ .waits 1 1 ∈ es ∧ ∀ l, (∀ t o, l ≠ .op t o) → step s l = none := by
  refine ⟨[.op 0 .defer, .op 0 (.attach 0 .async), .go 0, .op 1 (.wait 1)], _, _, rfl, by decide, by decide, ?_⟩
  intro l hl
  cases l with
  | op t o => exact absurd rfl (hl t o)
  | begin t c => simp [step, init, upd_apply]
  | finish t o =>
    by_cases h1 : t = 1
    · subst h1; rfl
    · by_cases h0 : t = 0
      · subst h0; rfl
      · simp [step, init, upd_apply, h0, h1]
  | go t =>
    by_cases h1 : t = 1
    · subst h1; rfl
    · by_cases h0 : t = 0
      · subst h0; rfl
      · simp [step, init, upd_apply, h0, h1, go]
  | fail t =>
    by_cases h1 : t = 1
    · subst h1; rfl
    · by_cases h0 : t = 0
      · subst h0; rfl
      · simp [step, init, upd_apply, h0, h1, fail]

/-- **C35 fails:** when a thread cannot be started, `set_value` throws although the future is ready, and the remaining continuations are lost: everything has been done, and the second one, synchronous, has
not been called. -/
theorem not_all_called : ∃ ls s es, run step init ls = some (s, es) ∧ .attached 0 2 0 .sync ∈ es ∧ BecameReady 0 es ∧ .setThrew 0 0 ∈ es ∧ s.todo = [] ∧ s.stk 0 = [] ∧ (s.node 0).conts = [] ∧ calls 2 es = 0 := by
  exact ⟨[.op 0 .promise, .op 0 (.attach 0 .async), .go 0, .op 0 (.attach 0 .sync), .go 0, .op 0 (.set 0 (.value 1)), .fail 0], _, _, rfl, by decide, ⟨0, .value 1, .inl (by decide)⟩, by decide, rfl, rfl, rfl, by decide⟩

/-- **C35 fails:** when a thread for a continuation of a continuation cannot be started, the value of the latter, which a thread may have got already, is replaced by an exception. -/
theorem not_one_outcome : ∃ ls s es, run step init ls = some (s, es) ∧ .ended 0 1 (.value 8) ∈ es ∧ .waited 5 1 (.value 8) ∈ es ∧ .waited 6 1 .noThread ∈ es := by
  exact ⟨[.op 0 .promise, .op 0 (.attach 0 .sync), .go 0, .op 0 (.attach 1 .async), .go 0, .op 0 (.set 0 (.value 1)), .go 0, .finish 0 (.value 8), .op 5 (.wait 1), .go 5, .fail 0, .op 6 (.wait 1), .go 6], _, _, rfl, by decide, by decide, by decide⟩

/-- **C38, remark:** while a thread waits in a deferred continuation for its antecedent, another thread's `is_ready` blocks, and so does `then`. -/
theorem is_ready_blocks : ∃ ls s es, run step init ls = some (s, es) ∧ .attached 0 1 0 .deferred ∈ es ∧ s.stk 2 = [] ∧ step s (.op 2 (.poll 1)) = none ∧ step s (.op 2 (.attach 1 .sync)) = none := by
  exact ⟨[.op 0 .promise, .op 0 (.attach 0 .deferred), .go 0, .op 1 (.wait 1), .go 1], _, _, rfl, by decide, rfl, rfl, rfl⟩

/-! ## Which continuation `then` makes -/

/-- An explicit policy is honoured, in this order of precedence. -/
theorem resolve_explicit (own f : Flags) :
    (f.async = true → resolve own f = .async) ∧ (f.async = false → f.deferred = true → resolve own f = .deferred) ∧ (f.async = false → f.deferred = false → f.sync = true → resolve own f = .sync) ∧
    (f.async = false → f.deferred = false → f.sync = false → f.executor = true → resolve own f = .executor) := by
  refine ⟨fun a => ?_, fun a b => ?_, fun a b c => ?_, fun a b c d => ?_⟩ <;> simp [resolve, *]

/-- `launch::inherit` alone takes the policy of the antecedent. -/
theorem resolve_inherit (k : Kind) : resolve (policyOf k) { inherit := true } = resolveDefault k := by
  rcases k with _ | _ | _ | ⟨p, _ | _ | _ | _⟩ <;> rfl

/-- Without a policy, a continuation is run in the way its antecedent was: deferred after deferred, by the executor after the executor, otherwise in a new thread. -/
theorem resolve_default (k : Kind) : resolveDefault k = match k with
    | .deferred => .deferred
    | .cont _ .deferred => .deferred
    | .cont _ .executor => .executor
    | _ => .async := by
  rcases k with _ | _ | _ | ⟨p, _ | _ | _ | _⟩ <;> rfl

/-- So a continuation attached without a policy to a deferred future is deferred, and waiting for it runs both functions. -/
example : ∃ ls s es, run step init ls = some (s, es) ∧ resolveDefault .deferred = .deferred ∧ .attached 0 1 0 .deferred ∈ es ∧ .began 3 0 ∈ es ∧ .began 3 1 ∈ es ∧ .waited 3 1 (.value 2) ∈ es := by
  exact ⟨[.op 0 .defer, .op 0 (.attach 0 .deferred), .go 0, .op 3 (.wait 1), .go 3, .go 3, .finish 3 (.value 1), .go 3, .go 3, .go 3, .finish 3 (.value 2), .go 3, .go 3], _, _, rfl, rfl, by decide, by decide, by decide, by decide⟩

end Verif.Continuation
