import Verif.WhenAll.Sim
/-! # C37: readiness of when_all and when_any -/

set_option linter.unusedSimpArgs false

namespace Verif.WhenAll

/-- **C37.** Every history of any number of calls with any inputs conforms to the specification. -/
theorem history_conforms (d : Nat → Bool) (ls : List Label) (s : State) (es : List Event) (h : run step (init d) ls = some (s, es)) : Accepts next Spec.init es :=
  simulation Rel (fun _ _ _ _ _ hR hs => sim hR hs) (s := init d) (rel_init d) h

/-! ## What the specification remembers -/

/-- The specification never gives up on a history. -/
theorem always_known {σ : Spec} {es : List Event} (h : Accepts next σ es) : ∃ σ', specState next σ es = some σ' := by
  induction es generalizing σ with
  | nil => exact ⟨σ, rfl⟩
  | cons e es ih =>
    simp only [Accepts] at h
    cases hn : next σ e with
    | ok σ' =>
      simp only [hn] at h
      obtain ⟨σ'', hσ⟩ := ih h
      exact ⟨σ'', by simp [specState, hn, hσ]⟩
    | illegal => simp [hn] at h
    | undefined =>
      exfalso
      unfold next at hn
      (repeat' split at hn) <;> cases hn

/-- How often the future of call `c` has become ready. -/
def readies (c : Nat) (es : List Event) : Nat := es.countP fun e => match e with
  | .ready d _ => d == c
  | _ => false

/-- How often a call has executed the deferred function of input `i`. -/
def executions (i : Nat) (es : List Event) : Nat := es.countP fun e => match e with
  | .took _ j => j == i
  | _ => false

structure Mem (σ : Spec) (es : List Event) : Prop where
  done : ∀ i, σ.done i = true ↔ .done i ∈ es
  call : ∀ c w fs, .call c w fs ∈ es → σ.call c = some (w, fs)
  ready : ∀ c, readies c es = if σ.ready c then 1 else 0
  taken : ∀ i, executions i es = if σ.taken i then 1 else 0

theorem mem_init : Mem Spec.init [] := by
  constructor <;> simp [Spec.init, readies, executions]

theorem mem_step {σ σ' : Spec} {es : List Event} {e : Event} (h : Mem σ es) (hn : next σ e = .ok σ') : Mem σ' (es ++ [e]) := by
  obtain ⟨h1, h2, h3, h4⟩ := h
  simp only [readies, executions] at h3 h4
  unfold next at hn
  (repeat' split at hn) <;> cases hn <;>
    (constructor <;> simp only [List.mem_append, List.mem_singleton, readies, executions, List.countP_append, List.countP_singleton, upd_apply] <;> grind)

theorem mem_of_run {σ σ' : Spec} {hist es : List Event} (h : Mem σ hist) (hs : specState next σ es = some σ') : Mem σ' (hist ++ es) := by
  induction es generalizing σ hist with
  | nil => simp only [specState, Option.some.injEq] at hs; subst hs; simpa using h
  | cons e es ih =>
    simp only [specState] at hs
    cases hn : next σ e with
    | ok σ1 =>
      simp only [hn] at hs
      have := ih (mem_step h hn) hs
      simpa using this
    | illegal => simp [hn] at hs
    | undefined => simp [hn] at hs

theorem at_point {es₁ es₂ : List Event} {e : Event} (h : Accepts next Spec.init (es₁ ++ e :: es₂)) : ∃ σ σ', specState next Spec.init es₁ = some σ ∧ Mem σ es₁ ∧ next σ e = .ok σ' := by
  obtain ⟨σ, hσ⟩ := always_known h.prefix
  refine ⟨σ, ?_⟩
  have hm := mem_of_run mem_init hσ
  have hi := h.next_of_specState hσ
  cases hn : next σ e with
  | ok σ' => exact ⟨σ', hσ, by simpa using hm, rfl⟩
  | illegal => exact absurd hn hi
  | undefined =>
    exfalso
    unfold next at hn
    (repeat' split at hn) <;> cases hn

/-! ## Safety -/

/-- **C37 (when_all, only when).** When the future of `when_all` becomes ready with the input futures, all of these are ready, and the result contains them in order. -/
theorem all_ready (d : Nat → Bool) (ls : List Label) (s : State) (es₁ es₂ : List Event) (c : Nat) (w : Which) (fs gs : List (Option Nat)) (h : run step (init d) ls = some (s, es₁ ++ .ready c (.futures gs) :: es₂))
    (hc : .call c w fs ∈ es₁) (hw : w.all = true) : gs = fs ∧ ∀ x ∈ fs, ∃ i, x = some i ∧ .done i ∈ es₁ := by
  obtain ⟨σ, σ', -, hm, hn⟩ := at_point (history_conforms d ls s _ h)
  simp only [next, hm.call c w fs hc] at hn
  split at hn <;> cases hn
  rename_i hh
  refine ⟨hh.1, fun x hx => ?_⟩
  have := hh.2.1
  simp only [mayBeReady, hw, if_true, List.all_eq_true] at this
  have := this x hx
  rcases x with _ | i
  · cases this
  · exact ⟨i, rfl, (hm.done i).mp this⟩

/-- **C37 (when_any, only when).** When the future of `when_any` becomes ready with the input futures, one of these is ready (or there is none), and the result contains them in order. -/
theorem any_ready (d : Nat → Bool) (ls : List Label) (s : State) (es₁ es₂ : List Event) (c : Nat) (w : Which) (fs gs : List (Option Nat)) (h : run step (init d) ls = some (s, es₁ ++ .ready c (.futures gs) :: es₂))
    (hc : .call c w fs ∈ es₁) (hw : w.all = false) : gs = fs ∧ (fs = [] ∨ ∃ i, some i ∈ fs ∧ .done i ∈ es₁) := by
  obtain ⟨σ, σ', -, hm, hn⟩ := at_point (history_conforms d ls s _ h)
  simp only [next, hm.call c w fs hc] at hn
  split at hn <;> cases hn
  rename_i hh
  refine ⟨hh.1, ?_⟩
  have := hh.2.1
  simp only [mayBeReady, hw, Bool.false_eq_true, if_false, Bool.or_eq_true, List.isEmpty_iff, List.any_eq_true] at this
  rcases this with h | ⟨x, hx, hd⟩
  · exact .inl h
  · rcases x with _ | i
    · cases hd
    · exact .inr ⟨i, hx, (hm.done i).mp hd⟩

/-- **C37.** The result is an exception only if an input is invalid. -/
theorem exception_only_if_invalid (d : Nat → Bool) (ls : List Label) (s : State) (es₁ es₂ : List Event) (c : Nat) (w : Which) (fs : List (Option Nat)) (h : run step (init d) ls = some (s, es₁ ++ .ready c .exception :: es₂))
    (hc : .call c w fs ∈ es₁) : none ∈ fs := by
  obtain ⟨σ, σ', -, hm, hn⟩ := at_point (history_conforms d ls s _ h)
  simp only [next, hm.call c w fs hc] at hn
  split at hn <;> cases hn
  rename_i hh
  exact hh.1

/-- **C37.** The behaviour is undefined only if an input is invalid. -/
theorem crash_only_if_invalid (d : Nat → Bool) (ls : List Label) (s : State) (es₁ es₂ : List Event) (c : Nat) (w : Which) (fs : List (Option Nat)) (h : run step (init d) ls = some (s, es₁ ++ .crash c :: es₂))
    (hc : .call c w fs ∈ es₁) : none ∈ fs := by
  obtain ⟨σ, σ', -, hm, hn⟩ := at_point (history_conforms d ls s _ h)
  simp only [next, hm.call c w fs hc] at hn
  split at hn <;> cases hn
  assumption

/-- **C37.** A future becomes ready at most once. -/
theorem ready_at_most_once (d : Nat → Bool) (ls : List Label) (s : State) (es : List Event) (h : run step (init d) ls = some (s, es)) (c : Nat) : readies c es ≤ 1 := by
  obtain ⟨σ, hσ⟩ := always_known (history_conforms d ls s es h)
  have := (mem_of_run mem_init hσ).ready c
  simp only [List.nil_append] at this
  rw [this]
  split <;> simp

/-- **C37.** Whatever calls share an input, its deferred function is executed at most once by them, and not when it is ready. -/
theorem executed_at_most_once (d : Nat → Bool) (ls : List Label) (s : State) (es : List Event) (h : run step (init d) ls = some (s, es)) (i : Nat) : executions i es ≤ 1 := by
  obtain ⟨σ, hσ⟩ := always_known (history_conforms d ls s es h)
  have := (mem_of_run mem_init hσ).taken i
  simp only [List.nil_append] at this
  rw [this]
  split <;> simp

theorem not_executed_after_readiness (d : Nat → Bool) (ls : List Label) (s : State) (es₁ es₂ : List Event) (c i : Nat) (h : run step (init d) ls = some (s, es₁ ++ .took c i :: es₂)) : .done i ∉ es₁ := by
  obtain ⟨σ, σ', -, hm, hn⟩ := at_point (history_conforms d ls s _ h)
  simp only [next] at hn
  (repeat' split at hn) <;> cases hn
  rename_i hh
  intro hd
  have := (hm.done i).mpr hd
  rw [hh.2.2] at this
  cases this

/-! ## Progress -/

structure Hist (d : Nat → Bool) (s : State) (h : List Event) : Prop where
  done : ∀ i, s.done i = true ↔ .done i ∈ h
  running : ∀ c i todo res, s.pc c = .running i todo res → .took c i ∈ h ∧ s.deferred i = false
  exec : ∀ c i todo inl, s.pc c = .exec i todo inl → .took c i ∈ h ∧ s.deferred i = false
  returning : ∀ c, s.pc c = .returning → ∃ r, .ready c r ∈ h
  finished : ∀ c, s.pc c = .finished → (∃ r, .ready c r ∈ h) ∨ .threw c ∈ h
  crashed : ∀ c, s.pc c = .crashed → .crash c ∈ h
  took : ∀ c i, .took c i ∈ h → d i = true
  deferred : ∀ i, s.deferred i = true → d i = true

theorem hist_init (d : Nat → Bool) : Hist d (init d) [] := by
  constructor <;> simp [init]

theorem hist_move {d : Nat → Bool} {s : State} {h : List Event} (hh : Hist d s h) (c : Nat) (p : PC) (df : Nat → Bool) (es : List Event) (hdf : ∀ i, df i = true → s.deferred i = true) (hes : ∀ i, .done i ∉ es)
    (htook : ∀ c i, .took c i ∈ es → s.deferred i = true)
    (h1 : ∀ i todo res, p = .running i todo res → .took c i ∈ h ++ es ∧ df i = false) (h2 : ∀ i todo res, p = .exec i todo res → .took c i ∈ h ++ es ∧ df i = false) (h3 : p = .returning → ∃ r, .ready c r ∈ h ++ es)
    (h4 : p = .finished → (∃ r, .ready c r ∈ h ++ es) ∨ .threw c ∈ h ++ es) (h5 : p = .crashed → .crash c ∈ h ++ es) : Hist d { s with deferred := df, pc := upd s.pc c p } (h ++ es) := by
  have hf : ∀ i, s.deferred i = false → df i = false := by
    intro i hi
    cases hd : df i with
    | false => rfl
    | true => rw [hdf i hd] at hi; cases hi
  constructor
  · intro i
    rw [hh.done i, List.mem_append]
    exact ⟨.inl, fun h => h.elim id fun h => absurd h (hes i)⟩
  · intro e i todo res he
    simp only [upd_apply] at he
    split at he
    · rename_i hec; subst hec; exact h1 i todo res he
    · exact ⟨List.mem_append_left _ (hh.running e i todo res he).1, hf i (hh.running e i todo res he).2⟩
  · intro e i todo res he
    simp only [upd_apply] at he
    split at he
    · rename_i hec; subst hec; exact h2 i todo res he
    · exact ⟨List.mem_append_left _ (hh.exec e i todo res he).1, hf i (hh.exec e i todo res he).2⟩
  · intro e he
    simp only [upd_apply] at he
    split at he
    · rename_i hec; subst hec; exact h3 he
    · obtain ⟨r, hr⟩ := hh.returning e he
      exact ⟨r, List.mem_append_left _ hr⟩
  · intro e he
    simp only [upd_apply] at he
    split at he
    · rename_i hec; subst hec; exact h4 he
    · rcases hh.finished e he with ⟨r, hr⟩ | hr
      · exact .inl ⟨r, List.mem_append_left _ hr⟩
      · exact .inr (List.mem_append_left _ hr)
  · intro e he
    simp only [upd_apply] at he
    split at he
    · rename_i hec; subst hec; exact h5 he
    · exact List.mem_append_left _ (hh.crashed e he)
  · intro e i hi
    rcases List.mem_append.mp hi with hi | hi
    · exact hh.took e i hi
    · exact hh.deferred i (htook e i hi)
  · intro i hi
    exact hh.deferred i (hdf i hi)

theorem upd_false {df : Nat → Bool} {i j : Nat} (h : upd df i false j = true) : df j = true := by
  simp only [upd_apply] at h
  split at h
  · cases h
  · exact h

theorem hist_go {d : Nat → Bool} {s s' : State} {c : Nat} {h es : List Event} (hh : Hist d s h) (hs : go s c (s.pc c) = some (s', es)) : Hist d s' (h ++ es) := by
  have hdef : ∀ i, s.deferred i = true → s.deferred i = true := fun _ h => h
  cases hp : s.pc c with
  | none => rw [hp] at hs; cases hs
  | finished => rw [hp] at hs; cases hs
  | crashed => rw [hp] at hs; cases hs
  | returning =>
    rw [hp] at hs
    simp only [go] at hs; cases hs
    obtain ⟨r, hr⟩ := hh.returning c hp
    exact hist_move hh c _ s.deferred _ hdef (by simp) (by simp) (by simp) (by simp) (by simp) (fun _ => .inl ⟨r, List.mem_append_left _ hr⟩) (by simp)
  | start inl =>
    rw [hp] at hs
    simp only [go] at hs; cases hs
    exact hist_move hh c _ s.deferred _ hdef (by cases inl <;> simp) (by cases inl <;> simp) (by simp) (by simp) (by simp) (by simp) (by simp)
  | defer todo res =>
    rw [hp] at hs
    rcases todo with _ | ⟨_ | i, todo⟩
    · simp only [go] at hs; cases hs
      exact hist_move hh c _ s.deferred _ hdef (by simp) (by simp) (by simp) (by simp) (by simp) (by simp) (by simp)
    · simp only [go] at hs; cases hs
      exact hist_move hh c _ s.deferred _ hdef (by simp) (by simp) (by simp) (by simp) (by simp) (by simp) (by simp)
    · simp only [go] at hs
      split at hs
      · rename_i hd
        cases hs
        exact hist_move hh c _ _ _ (fun _ => upd_false) (by simp) (by rintro _ _ he; simp only [List.mem_singleton, Event.took.injEq] at he; rw [he.2]; exact hd)
          (by rintro _ _ _ ⟨⟩; simp [upd_apply]) (by simp) (by simp) (by simp) (by simp)
      · (repeat' split at hs) <;> cases hs <;> exact hist_move hh c _ s.deferred _ hdef (by simp) (by simp) (by simp) (by simp) (by simp) (by simp) (by simp)
  | running i todo res =>
    rw [hp] at hs
    simp only [go] at hs
    split at hs <;> cases hs
    exact hist_move hh c _ s.deferred _ hdef (by simp) (by simp) (by intros; split at * <;> contradiction) (by intros; split at * <;> contradiction) (by intros; split at * <;> contradiction) (by intros; split at * <;> contradiction) (by intros; split at * <;> contradiction)
  | exec i todo inl =>
    rw [hp] at hs
    simp only [go] at hs
    split at hs <;> cases hs
    exact hist_move hh c _ s.deferred _ hdef (by simp) (by simp) (by simp) (by simp) (by simp) (by simp) (by simp)
  | wait todo inl =>
    rw [hp] at hs
    have hmark : ∀ r, Hist d (s.mark c r inl).1 (h ++ (s.mark c r inl).2) := by
      intro r
      simp only [State.mark]
      exact hist_move hh c _ s.deferred _ hdef (by simp) (by simp) (by intros; split at * <;> contradiction) (by intros; split at * <;> contradiction) (fun _ => ⟨r, by simp⟩) (fun _ => .inl ⟨r, by simp⟩)
        (by intros; split at * <;> contradiction)
    simp only [go] at hs
    split at hs
    · split at hs
      · simp only [Option.some.injEq] at hs; have := hmark (.futures (s.arg c)); rw [hs] at this; exact this
      · simp only [Option.some.injEq] at hs; have := hmark .exception; rw [hs] at this; exact this
      · split at hs
        · rename_i hd
          cases hs
          exact hist_move hh c _ _ _ (fun _ => upd_false) (by simp) (by rintro _ _ he; simp only [List.mem_singleton, Event.took.injEq] at he; rw [he.2]; exact hd)
            (by simp) (by rintro _ _ _ ⟨⟩; simp [upd_apply]) (by simp) (by simp) (by simp)
        · split at hs <;> cases hs
          exact hist_move hh c _ s.deferred _ hdef (by simp) (by simp) (by simp) (by simp) (by simp) (by simp) (by simp)
    · split at hs
      · simp only [Option.some.injEq] at hs; have := hmark (.futures (s.arg c)); rw [hs] at this; exact this
      · cases hs

theorem hist_step {d : Nat → Bool} {s s' : State} {l : Label} {h es : List Event} (hh : Hist d s h) (hs : step s l = some (s', es)) : Hist d s' (h ++ es) := by
  cases l with
  | go c => exact hist_go hh hs
  | take i =>
    simp only [step] at hs
    split at hs <;> cases hs
    rw [List.append_nil]
    refine { hh with running := ?_, exec := ?_, deferred := fun j hj => hh.deferred j (upd_false hj) }
    · intro c j todo res hp
      refine ⟨(hh.running c j todo res hp).1, ?_⟩
      simp [upd_apply, (hh.running c j todo res hp).2]
    · intro c j todo res hp
      refine ⟨(hh.exec c j todo res hp).1, ?_⟩
      simp [upd_apply, (hh.exec c j todo res hp).2]
  | finish i =>
    simp only [step] at hs
    split at hs <;> cases hs
    have hm := fun e (he : e ∈ h) => List.mem_append_left [Event.done i] he
    constructor
    · intro j
      simp only [upd_apply, List.mem_append, List.mem_singleton, Event.done.injEq]
      by_cases hj : j = i
      · simp [hj]
      · simp [hj, hh.done j]
    · exact fun c j todo res hp => ⟨hm _ (hh.running c j todo res hp).1, (hh.running c j todo res hp).2⟩
    · exact fun c j todo res hp => ⟨hm _ (hh.exec c j todo res hp).1, (hh.exec c j todo res hp).2⟩
    · intro c hp
      obtain ⟨r, hr⟩ := hh.returning c hp
      exact ⟨r, hm _ hr⟩
    · intro c hp
      rcases hh.finished c hp with ⟨r, hr⟩ | hr
      · exact .inl ⟨r, hm _ hr⟩
      · exact .inr (hm _ hr)
    · exact fun c hp => hm _ (hh.crashed c hp)
    · intro c j hj
      simp only [List.mem_append, List.mem_singleton] at hj
      rcases hj with hj | hj
      · exact hh.took c j hj
      · cases hj
    · exact hh.deferred
  | fail c =>
    simp only [step] at hs
    split at hs <;> cases hs
    exact hist_move hh c _ s.deferred _ (fun _ h => h) (by simp) (by simp) (by simp) (by simp) (by simp) (by simp) (by simp)
  | call c w fs =>
    simp only [step] at hs
    split at hs
    · split at hs <;> cases hs
      · exact hist_move hh c _ s.deferred _ (fun _ h => h) (by simp) (by simp) (by simp) (by simp) (by simp) (fun _ => .inl ⟨.futures [], by simp⟩) (by simp)
      · have := hist_move hh c (.defer (if w.tuple then fs.reverse else fs) false) s.deferred [.call c w fs] (fun _ h => h) (by simp) (by simp) (by simp) (by simp) (by simp) (by simp) (by simp)
        exact ⟨this.done, this.running, this.exec, this.returning, this.finished, this.crashed, this.took, this.deferred⟩
    · cases hs

theorem hist_run {d : Nat → Bool} {ls : List Label} {s : State} {es : List Event} (h : run step (init d) ls = some (s, es)) : Hist d s es := by
  simpa using run_inv_hist (hist := []) (Hist d) (fun _ _ _ _ _ hh hs => hist_step hh hs) (hist_init d) h

/-- Why a call does not go on: an input that `when_all` needs is not ready, and either was not deferred or is being executed; `when_any` executes a deferred input, or no input is ready. -/
def Waiting (s : State) (es : List Event) (c : Nat) (w : Which) (fs : List (Option Nat)) : Prop :=
  if w.all then ∃ i, some i ∈ fs ∧ .done i ∉ es ∧ s.deferred i = false
  else (∃ i, some i ∈ fs ∧ .done i ∉ es ∧ .took c i ∈ es) ∨ ∀ i, some i ∈ fs → .done i ∉ es

/-- **C37 (when, safety half).** As long as the future of a call with valid inputs is not ready, and the call has not thrown, the call can go on, or it waits for an input that is not ready. -/
theorem goes_on_or_waits (d : Nat → Bool) (ls : List Label) (s : State) (es : List Event) (h : run step (init d) ls = some (s, es)) (c : Nat) (w : Which) (fs : List (Option Nat)) (hc : .call c w fs ∈ es) (hv : none ∉ fs)
    (hr : ∀ r, .ready c r ∉ es) (ht : .threw c ∉ es) : (∃ x, step s (.go c) = some x) ∨ Waiting s es c w fs := by
  have hh := hist_run h
  have ha := history_conforms d ls s es h
  obtain ⟨σ, hσ⟩ := always_known ha
  have hR : Rel s σ := simulation_state Rel (fun _ _ _ _ _ hR hs => sim hR hs) (s := init d) (rel_init d) h hσ
  have hm := mem_of_run mem_init hσ
  simp only [List.nil_append] at hm
  have hcall := hm.call c w fs hc
  have hk := hR.pcs c
  have hnd : ∀ i, ¬ s.done i = true → .done i ∉ es := fun i hi hd => hi ((hh.done i).mpr hd)
  simp only [step]
  cases hp : s.pc c with
  | none => rw [hp] at hk; have := (hk.fresh rfl).1; rw [hcall] at this; cases this
  | finished => rcases hh.finished c hp with ⟨r, hx⟩ | hx
                · exact absurd hx (hr r)
                · exact absurd hx ht
  | crashed =>
    have hx := hh.crashed c hp
    obtain ⟨es₁, es₂, he⟩ := List.append_of_mem hx
    rw [he] at ha
    obtain ⟨σ1, σ2, h1, hm1, h2⟩ := at_point ha
    simp only [next] at h2
    have hσ' := hσ
    -- the call is the same at the crash
    have hkeep : ∀ (es : List Event) (σ σ' : Spec) (x : Which × List (Option Nat)), σ.call c = some x → specState next σ es = some σ' → σ'.call c = some x := by
      intro es
      induction es with
      | nil => intro σ σ' x h1 h2; simp only [specState, Option.some.injEq] at h2; subst h2; exact h1
      | cons e es ih =>
        intro σ σ' x h1 h2
        simp only [specState] at h2
        cases hn : next σ e with
        | ok σ1 =>
          simp only [hn] at h2
          refine ih σ1 σ' x ?_ h2
          unfold next at hn
          (repeat' split at hn) <;> cases hn <;> (try simp only [upd_apply]) <;> (try split) <;> simp_all
        | illegal => simp [hn] at h2
        | undefined => simp [hn] at h2
    cases hc1 : σ1.call c with
    | none => rw [hc1] at h2; cases h2
    | some x =>
      obtain ⟨w', fs'⟩ := x
      simp only [hc1] at h2
      split at h2 <;> cases h2
      rename_i hinv
      rw [he, specState_append, h1] at hσ'
      simp only [Option.bind_some] at hσ'
      have := hkeep _ σ1 σ _ hc1 hσ'
      rw [hcall] at this
      cases this
      exact absurd hinv hv
  | returning => obtain ⟨r, hx⟩ := hh.returning c hp; exact absurd hx (hr r)
  | start inl => exact .inl ⟨_, rfl⟩
  | defer todo res =>
    left
    rcases todo with _ | ⟨_ | i, todo⟩
    · exact ⟨_, rfl⟩
    · exact ⟨_, rfl⟩
    · simp only [go]
      split
      · exact ⟨_, rfl⟩
      · split
        · split <;> exact ⟨_, rfl⟩
        · split <;> exact ⟨_, rfl⟩
  | running i todo res =>
    rw [hp] at hk
    have hact := hk.active (by simp) (by simp) (by simp)
    rw [hcall] at hact
    simp only [Option.some.injEq, Prod.mk.injEq] at hact
    simp only [go]
    by_cases hd : s.done i = true
    · left; rw [if_pos hd]; exact ⟨_, rfl⟩
    · right
      have hi := (hk.running i todo res rfl).1
      rw [← hact.2] at hi
      unfold Waiting
      split
      · exact ⟨i, hi, hnd i hd, (hh.running c i todo res hp).2⟩
      · exact .inl ⟨i, hi, hnd i hd, (hh.running c i todo res hp).1⟩
  | exec i todo inl =>
    rw [hp] at hk
    have hact := hk.active (by simp) (by simp) (by simp)
    rw [hcall] at hact
    simp only [Option.some.injEq, Prod.mk.injEq] at hact
    simp only [go]
    by_cases hd : s.done i = true
    · left; rw [if_pos hd]; exact ⟨_, rfl⟩
    · right
      obtain ⟨pre, h1, -⟩ := hk.exec i todo inl rfl
      have hi : some i ∈ fs := by rw [hact.2, h1]; simp
      unfold Waiting
      split
      · exact ⟨i, hi, hnd i hd, (hh.exec c i todo inl hp).2⟩
      · exact .inl ⟨i, hi, hnd i hd, (hh.exec c i todo inl hp).1⟩
  | wait todo inl =>
    rw [hp] at hk
    have hact := hk.active (by simp) (by simp) (by simp)
    rw [hcall] at hact
    simp only [Option.some.injEq, Prod.mk.injEq] at hact
    obtain ⟨pre, h1, -⟩ := hk.wait todo inl rfl
    simp only [go]
    rw [← hact.1]
    by_cases hw : w.all = true
    · simp only [hw, if_true]
      rcases todo with _ | ⟨_ | i, todo⟩
      · exact .inl ⟨_, rfl⟩
      · exact .inl ⟨_, rfl⟩
      · simp only
        by_cases hf : s.deferred i = true
        · rw [if_pos hf]; exact .inl ⟨_, rfl⟩
        · rw [if_neg hf]
          by_cases hd : s.done i = true
          · rw [if_pos hd]; exact .inl ⟨_, rfl⟩
          · right
            unfold Waiting
            rw [if_pos hw]
            exact ⟨i, by rw [hact.2, h1]; simp, hnd i hd, by simpa using hf⟩
    · simp only [hw, Bool.false_eq_true, if_false]
      split
      · exact .inl ⟨_, rfl⟩
      · rename_i hx
        right
        unfold Waiting
        rw [if_neg hw]
        right
        intro i hi
        refine hnd i fun hd => hx ⟨i, ?_, hd⟩
        rw [← hact.2]
        exact List.mem_filterMap.mpr ⟨some i, hi, rfl⟩

/-- What is left to do. -/
def left (n : Nat) : PC → Nat
  | .none => 0
  | .defer todo _ => 2 * todo.length + 2 * n + 4
  | .running _ todo _ => 2 * todo.length + 2 * n + 5
  | .start _ => 2 * n + 3
  | .wait todo _ => 2 * todo.length + 2
  | .exec _ todo _ => 2 * todo.length + 3
  | .returning => 1
  | .finished => 0
  | .crashed => 0

theorem go_left {s s' : State} {c : Nat} {es : List Event} (h : go s c (s.pc c) = some (s', es)) :
    s'.arg = s.arg ∧ ∃ p, s'.pc = upd s.pc c p ∧ p ≠ .none ∧ left (s.arg c).length p < left (s.arg c).length (s.pc c) := by
  unfold go at h
  (repeat' split at h) <;> (try cases h) <;> (try simp only [State.mark, Option.some.injEq, Prod.mk.injEq] at h) <;> (try obtain ⟨rfl, rfl⟩ := h) <;>
    (refine ⟨rfl, _, rfl, ?_, ?_⟩ <;> (try split) <;> (try simp_all [left]) <;> (try split) <;> (try simp_all [left]) <;> (try omega))

theorem step_left {s s' : State} {l : Label} {c : Nat} {es : List Event} (hc : s.pc c ≠ .none) (h : step s l = some (s', es)) :
    s'.pc c ≠ .none ∧ left (s'.arg c).length (s'.pc c) + (if l = .go c then 1 else 0) ≤ left (s.arg c).length (s.pc c) := by
  cases l with
  | go e =>
    obtain ⟨h1, p, h2, h3, h4⟩ := go_left h
    rw [h1, h2]
    by_cases he : e = c
    · subst he
      simp only [upd_apply, if_true]
      exact ⟨h3, by omega⟩
    · simp [upd_apply, Ne.symm he, he, hc]
  | take i => simp only [step] at h; split at h <;> cases h; simp [hc]
  | finish i => simp only [step] at h; split at h <;> cases h; simp [hc]
  | fail e =>
    simp only [step] at h
    split at h <;> cases h
    simp only [upd_apply]
    split <;> simp [left, hc]
  | call e w fs =>
    simp only [step] at h
    split at h
    · rename_i hp
      have : c ≠ e := fun he => hc (he ▸ hp)
      split at h <;> cases h <;> simp [upd_apply, this, hc]
    · cases h

theorem run_left {s s' : State} {ls : List Label} {c : Nat} {es : List Event} (hc : s.pc c ≠ .none) (h : run step s ls = some (s', es)) : ls.count (.go c) ≤ left (s.arg c).length (s.pc c) := by
  induction ls generalizing s es with
  | nil => simp
  | cons l ls ih =>
    obtain ⟨s1, es1, es2, hs, hr, rfl⟩ := run_cons h
    obtain ⟨h1, h2⟩ := step_left hc hs
    have := ih h1 hr
    rw [List.count_cons]
    simp only [beq_iff_eq]
    omega

/-- **C37 (when, liveness half).** A call with `n` inputs takes at most `4 * n + 4` steps, in every schedule. With `goes_on_or_waits`: if everybody who can go on does, then the future of `when_all` becomes ready, or the call throws, or an input that is not deferred never becomes ready; and that of `when_any` becomes ready, or the call throws, or no input ever becomes ready, or a deferred input that it executes never becomes ready. -/
theorem steps_bounded (d : Nat → Bool) (ls : List Label) (s : State) (es : List Event) (h : run step (init d) ls = some (s, es)) (c : Nat) (w : Which) (fs : List (Option Nat)) (hc : .call c w fs ∈ es) :
    ls.count (.go c) ≤ 4 * fs.length + 4 := by
  have main : ∀ (ls : List Label) (s s' : State) (es : List Event), s.pc c = .none → run step s ls = some (s', es) → .call c w fs ∈ es → ls.count (.go c) ≤ 4 * fs.length + 4 := by
    intro ls
    induction ls with
    | nil => intros; simp
    | cons l ls ih =>
      intro s s' es hp h hm
      obtain ⟨s1, es1, es2, hs, hr, rfl⟩ := run_cons h
      have hl : l ≠ .go c := by
        intro e
        subst e
        simp only [step, hp, go] at hs
        cases hs
      rw [List.count_cons, if_neg (by simpa using hl), Nat.add_zero]
      by_cases h1 : s1.pc c = .none
      · rcases List.mem_append.mp hm with hm | hm
        · exfalso
          cases l with
          | go e =>
            simp only [step] at hs
            unfold go at hs
            (repeat' split at hs) <;> (try cases hs) <;> (try simp only [State.mark, Option.some.injEq, Prod.mk.injEq] at hs) <;> (try obtain ⟨rfl, rfl⟩ := hs) <;> (try simp at hm) <;> (try split at hm) <;> simp at hm
          | take i => simp only [step] at hs; split at hs <;> cases hs; simp at hm
          | finish i => simp only [step] at hs; split at hs <;> cases hs; simp at hm
          | fail e => simp only [step] at hs; split at hs <;> cases hs; simp at hm
          | call e w' fs' =>
            simp only [step] at hs
            split at hs
            · split at hs <;> cases hs <;> simp only [List.mem_cons, Event.call.injEq, reduceCtorEq, or_false, List.not_mem_nil] at hm <;> obtain ⟨rfl, -⟩ := hm <;> simp [upd_apply] at h1
            · cases hs
        · exact ih s1 s' es2 h1 hr hm
      · have hb := run_left h1 hr
        -- this was the call
        cases l with
        | go e =>
          obtain ⟨-, p, h2, -, -⟩ := go_left hs
          rw [h2] at h1
          simp only [upd_apply] at h1
          split at h1
          · rename_i he; exact absurd (by rw [he]) hl
          · exact absurd hp h1
        | take i => simp only [step] at hs; split at hs <;> cases hs; exact absurd hp h1
        | finish i => simp only [step] at hs; split at hs <;> cases hs; exact absurd hp h1
        | fail e =>
          simp only [step] at hs
          split at hs <;> cases hs
          rename_i hpe
          simp only [upd_apply] at h1
          split at h1
          · rename_i he; subst he; rw [hp] at hpe; cases hpe
          · exact absurd hp h1
        | call e w' fs' =>
          simp only [step] at hs
          split at hs
          · by_cases he : c = e
            · subst he
              have hno : .call c w fs ∉ es2 := by
                intro hm2
                have hk : ∀ (ls : List Label) (s s' : State) (es : List Event), s.pc c ≠ .none → run step s ls = some (s', es) → .call c w fs ∉ es := by
                  intro ls
                  induction ls with
                  | nil => intro s s' es _ h; simp only [run_nil, Option.some.injEq, Prod.mk.injEq] at h; rw [← h.2]; simp
                  | cons l ls ih =>
                    intro s s' es hne h hm
                    obtain ⟨s1, es1, es2, hs, hr, rfl⟩ := run_cons h
                    rcases List.mem_append.mp hm with hm | hm
                    · cases l with
                      | go e =>
                        simp only [step] at hs
                        unfold go at hs
                        (repeat' split at hs) <;> (try cases hs) <;> (try simp only [State.mark, Option.some.injEq, Prod.mk.injEq] at hs) <;> (try obtain ⟨rfl, rfl⟩ := hs) <;> (try simp at hm) <;> (try split at hm) <;> simp at hm
                      | take i => simp only [step] at hs; split at hs <;> cases hs; simp at hm
                      | finish i => simp only [step] at hs; split at hs <;> cases hs; simp at hm
                      | fail e => simp only [step] at hs; split at hs <;> cases hs; simp at hm
                      | call e w' fs' =>
                        simp only [step] at hs
                        split at hs
                        · split at hs <;> cases hs <;> simp only [List.mem_cons, Event.call.injEq, reduceCtorEq, or_false, List.not_mem_nil] at hm <;> obtain ⟨rfl, -⟩ := hm <;> contradiction
                        · cases hs
                    · exact ih s1 s' es2 (step_left hne hs).1 hr hm
                exact hk ls s1 s' es2 h1 hr hm2
              have hm1 := (List.mem_append.mp hm).resolve_right hno
              split at hs <;> cases hs
              · simp [upd_apply, left] at hb; omega
              · simp only [List.mem_singleton, Event.call.injEq, true_and] at hm1
                obtain ⟨rfl, rfl⟩ := hm1
                simp only [upd_apply, if_true, left] at hb
                split at hb <;> (try rw [List.length_reverse] at hb) <;> omega
            · split at hs <;> cases hs <;> simp [upd_apply, he, hp] at h1
          · cases hs
  exact main ls (init d) s es rfl h hc

/-- **C37 (when).** If all inputs of a call are ready, no matter which function was called, then its future is ready, or the call has thrown, or the call can go on (and `steps_bounded` says for how long). -/
theorem ready_when_all_inputs_are (d : Nat → Bool) (ls : List Label) (s : State) (es : List Event) (h : run step (init d) ls = some (s, es)) (c : Nat) (w : Which) (fs : List (Option Nat)) (hc : .call c w fs ∈ es) (hne : fs ≠ [])
    (hd : ∀ x ∈ fs, ∃ i, x = some i ∧ .done i ∈ es) : (∃ r, .ready c r ∈ es) ∨ .threw c ∈ es ∨ ∃ x, step s (.go c) = some x := by
  by_cases hr : ∃ r, .ready c r ∈ es
  · exact .inl hr
  by_cases ht : .threw c ∈ es
  · exact .inr (.inl ht)
  right; right
  have hdone : ∀ i, some i ∈ fs → .done i ∈ es := by
    intro i hi
    obtain ⟨j, hj, hd⟩ := hd _ hi
    cases hj; exact hd
  rcases goes_on_or_waits d ls s es h c w fs hc (fun hn => by obtain ⟨i, hi, -⟩ := hd _ hn; cases hi) (fun r hx => hr ⟨r, hx⟩) ht with h | h
  · exact h
  · exfalso
    unfold Waiting at h
    split at h
    · obtain ⟨i, hi, hx, -⟩ := h; exact hx (hdone i hi)
    · rcases h with ⟨i, hi, hx, -⟩ | h
      · exact hx (hdone i hi)
      · obtain ⟨x, hx⟩ := List.exists_mem_of_ne_nil fs hne
        obtain ⟨i, rfl, hdi⟩ := hd x hx
        exact h i hx hdi

/-- **C37 (when_any, when; the case of a deferred input is missing, see `any_blocks_in_a_deferred_input`).** If one input of `when_any` is ready, the inputs are valid, and those that were deferred are ready, then its future is ready, or the call has thrown, or the call can go on. -/
theorem any_ready_when_one_is_partial (d : Nat → Bool) (ls : List Label) (s : State) (es : List Event) (h : run step (init d) ls = some (s, es)) (c : Nat) (w : Which) (fs : List (Option Nat)) (hc : .call c w fs ∈ es)
    (hw : w.all = false) (hv : none ∉ fs) (i : Nat) (hi : some i ∈ fs) (hd : .done i ∈ es) (hdef : ∀ j, some j ∈ fs → d j = true → .done j ∈ es) : (∃ r, .ready c r ∈ es) ∨ .threw c ∈ es ∨ ∃ x, step s (.go c) = some x := by
  by_cases hr : ∃ r, .ready c r ∈ es
  · exact .inl hr
  by_cases ht : .threw c ∈ es
  · exact .inr (.inl ht)
  right; right
  rcases goes_on_or_waits d ls s es h c w fs hc hv (fun r hx => hr ⟨r, hx⟩) ht with h' | h'
  · exact h'
  · exfalso
    simp only [Waiting, hw, Bool.false_eq_true, if_false] at h'
    rcases h' with ⟨j, hj, hx, htk⟩ | h'
    · exact hx (hdef j hj ((hist_run h).took c j htk))
    · exact h' i hi hd

/-- **C37.** A call of `when_all` or `when_any` without inputs gives a future that is ready. -/
theorem empty_is_ready (s : State) (c : Nat) (w : Which) (hp : s.pc c = .none) : ∃ s', step s (.call c w []) = some (s', [.call c w [], .ready c (.futures []), .ret c]) := by
  simp [step, hp]

/-! ## Examples -/

/-- Two calls share an input; one input is deferred and executed by the first call. -/
def witness : List Label :=
  [.call 0 ⟨true, false⟩ [some 0, some 1, some 2], .go 0, .call 1 ⟨false, true⟩ [some 1, some 3], .go 0, .finish 1, .go 1, .go 1, .go 1, .go 0, .go 0, .go 0, .go 0, .finish 2, .finish 0, .go 0, .go 0, .go 0, .go 0, .go 1, .go 1]

example : ∃ s es, run step (init fun i => i == 1) witness = some (s, es) ∧ .took 0 1 ∈ es ∧ .ready 0 (.futures [some 0, some 1, some 2]) ∈ es ∧ .ready 1 (.futures [some 1, some 3]) ∈ es ∧ .done 3 ∉ es ∧
    .ret 0 ∈ es ∧ .ret 1 ∈ es :=
  ⟨_, _, rfl, by decide, by decide, by decide, by decide, by decide, by decide⟩

/-- `goes_on_or_waits`: `when_all` of two promises waits for the second. -/
example : ∃ s es, run step (init fun _ => false) [.call 0 ⟨true, true⟩ [some 0, some 1], .go 0, .go 0, .finish 0, .go 0] = some (s, es) ∧ (∀ r, .ready 0 r ∉ es) ∧ .threw 0 ∉ es ∧ step s (.go 0) = none ∧
    Waiting s es 0 ⟨true, true⟩ [some 0, some 1] :=
  ⟨_, _, rfl, by simp, by decide, rfl, ⟨1, by decide, by decide, rfl⟩⟩

/-! ## Where the library does something else -/

/-- `when_any` of a ready future and a deferred one executes the deferred function, and is not ready before that has ended: here the call cannot go on although input 0 is ready. -/
theorem any_blocks_in_a_deferred_input : ∃ ls s es, run step (init fun i => i == 1) ls = some (s, es) ∧ .call 0 ⟨false, false⟩ [some 1, some 0] ∈ es ∧ .done 0 ∈ es ∧ (∀ r, .ready 0 r ∉ es) ∧ .ret 0 ∉ es ∧
    step s (.go 0) = none ∧ ∀ l, l ≠ .finish 1 → (∀ c w fs, l ≠ .call c w fs) → (∀ i, l ≠ .finish i) → (∀ i, l ≠ .take i) → step s l = none := by
  refine ⟨[.finish 0, .call 0 ⟨false, false⟩ [some 1, some 0], .go 0], _, _, rfl, by decide, by decide, by simp, by decide, rfl, ?_⟩
  intro l h1 h2 h3 h4
  cases l with
  | call c w fs => exact absurd rfl (h2 c w fs)
  | take i => exact absurd rfl (h4 i)
  | finish i => exact absurd rfl (h3 i)
  | go c =>
    by_cases hc : c = 0
    · subst hc; rfl
    · simp [step, upd_apply, hc, init, go]
  | fail c =>
    by_cases hc : c = 0
    · subst hc; rfl
    · simp [step, upd_apply, hc, init]

/-- An invalid input: undefined behaviour. -/
theorem invalid_input_crashes : ∃ ls s es, run step (init fun _ => false) ls = some (s, es) ∧ .call 0 ⟨true, false⟩ [some 0, none] ∈ es ∧ .crash 0 ∈ es :=
  ⟨[.call 0 ⟨true, false⟩ [some 0, none], .go 0, .go 0], _, _, rfl, by decide, by decide⟩

/-- An invalid input where the tuple version of `when_all` does not look at it first: the result is an exception, as soon as the inputs before it are ready. -/
theorem invalid_input_excepts : ∃ ls s es, run step (init fun _ => false) ls = some (s, es) ∧ .call 0 ⟨true, true⟩ [none, some 0] ∈ es ∧ .done 0 ∉ es ∧ .ready 0 .exception ∈ es :=
  ⟨[.call 0 ⟨true, true⟩ [none, some 0], .go 0, .go 0, .go 0], _, _, rfl, by decide, by decide, by decide⟩

/-- If the internal thread cannot be started the call throws, and there is no future although all inputs become ready. -/
theorem call_may_throw : ∃ ls s es, run step (init fun _ => false) ls = some (s, es) ∧ .call 0 ⟨true, true⟩ [some 0] ∈ es ∧ .done 0 ∈ es ∧ .threw 0 ∈ es ∧ (∀ r, .ready 0 r ∉ es) ∧ ∀ x, step s (.go 0) ≠ some x :=
  ⟨[.call 0 ⟨true, true⟩ [some 0], .go 0, .fail 0, .finish 0], _, _, rfl, by decide, by decide, by decide, by simp, by intro x h; cases h⟩

end Verif.WhenAll
