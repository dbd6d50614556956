import Verif.WhenAll.Props
/-! # C37: `when_all` and `when_any` return without waiting for their inputs -/

namespace Verif.WhenAll

/-- The order in which `run_deferred` looks at the inputs. -/
def order (w : Which) (fs : List (Option Nat)) : List (Option Nat) := if w.tuple then fs.reverse else fs

theorem mem_order {w : Which} {fs : List (Option Nat)} {x : Option Nat} : x ∈ order w fs ↔ x ∈ fs := by
  unfold order; split <;> simp

/-- `run` has nothing to wait for. -/
def Fine (done : Nat → Bool) (w : Which) (fs : List (Option Nat)) : Prop :=
  (w.all = true → AllDone done fs) ∧ (w.all = false → ∃ i ∈ fs.filterMap id, done i = true)

/-- What is known about call `c` at `p`. -/
def P (done : Nat → Bool) (w : Which) (fs : List (Option Nat)) (h : List Event) (c : Nat) : PC → Prop
  | .none => ∀ w fs, .call c w fs ∉ h
  | .defer todo res => ∃ pre, order w fs = pre ++ todo ∧ (w.all = true → res = false → AllDone done pre)
  | .running i todo res => .took c i ∈ h ∧ ∃ pre, order w fs = pre ++ some i :: todo ∧ (w.all = true → res = false → AllDone done pre)
  | .start inl => inl = true → Fine done w fs
  | .wait todo inl => (inl = true → Fine done w fs ∧ ∀ x ∈ todo, x ∈ fs) ∧ (inl = false → .ret c ∈ h)
  | .exec i todo inl => .took c i ∈ h ∧ (inl = true → Fine done w fs ∧ ∀ x ∈ todo, x ∈ fs) ∧ (inl = false → .ret c ∈ h)
  | .returning => True
  | .finished => .ret c ∈ h ∨ .threw c ∈ h
  | .crashed => .crash c ∈ h

theorem Fine.mono {done done' : Nat → Bool} (hd : ∀ i, done i = true → done' i = true) {w : Which} {fs : List (Option Nat)} (h : Fine done w fs) : Fine done' w fs :=
  ⟨fun hw => (h.1 hw).mono hd, fun hw => by obtain ⟨i, h1, h2⟩ := h.2 hw; exact ⟨i, h1, hd i h2⟩⟩

theorem P.mono {done done' : Nat → Bool} (hd : ∀ i, done i = true → done' i = true) {w : Which} {fs : List (Option Nat)} {h es : List Event} {c : Nat} {p : PC}
    (hp : P done w fs h c p) (he : ∀ w fs, .call c w fs ∉ es) : P done' w fs (h ++ es) c p := by
  cases p <;> simp only [P, List.mem_append] at hp ⊢
  · intro w fs
    rintro (h1 | h1)
    · exact hp w fs h1
    · exact he w fs h1
  · obtain ⟨pre, h1, h2⟩ := hp; exact ⟨pre, h1, fun a b => (h2 a b).mono hd⟩
  · obtain ⟨h0, pre, h1, h2⟩ := hp; exact ⟨.inl h0, pre, h1, fun a b => (h2 a b).mono hd⟩
  · exact fun a => (hp a).mono hd
  · exact ⟨fun a => ⟨(hp.1 a).1.mono hd, (hp.1 a).2⟩, fun a => .inl (hp.2 a)⟩
  · exact ⟨.inl hp.1, fun a => ⟨(hp.2.1 a).1.mono hd, (hp.2.1 a).2⟩, fun a => .inl (hp.2.2 a)⟩
  · rcases hp with h1 | h1
    · exact .inl (.inl h1)
    · exact .inr (.inl h1)
  · exact .inl hp

structure J (s : State) (h : List Event) : Prop where
  calls : ∀ c, P s.done (s.which c) (s.arg c) h c (s.pc c)
  done : ∀ i, .done i ∈ h → s.done i = true

theorem J.init (d : Nat → Bool) : J (init d) [] := ⟨fun c => by simp [WhenAll.init, P], by simp⟩

/-- Call `c` moves to `p`. -/
theorem J.move {s : State} {h es : List Event} (hj : J s h) {c : Nat} {p : PC} (df : Nat → Bool) (he : ∀ d w fs, .call d w fs ∉ es) (hn : ∀ i, .done i ∉ es)
    (hp : P s.done (s.which c) (s.arg c) (h ++ es) c p) : J { s with deferred := df, pc := upd s.pc c p } (h ++ es) := by
  refine ⟨fun d => ?_, fun i hi => ?_⟩
  · simp only [upd_apply]
    split
    · next hd => rw [hd]; exact hp
    · exact (hj.calls d).mono (fun _ h => h) (he d)
  · rcases List.mem_append.1 hi with h1 | h1
    · exact hj.done i h1
    · exact absurd h1 (hn i)

theorem allDone_append {done : Nat → Bool} {pre : List (Option Nat)} {i : Nat} (h : AllDone done pre) (hi : done i = true) : AllDone done (pre ++ [some i]) := by
  intro x hx
  rcases List.mem_append.1 hx with h1 | h1
  · exact h x h1
  · rw [List.mem_singleton] at h1; exact ⟨i, h1, hi⟩

theorem j_go {s s' : State} {c : Nat} {h es : List Event} (hj : J s h) (hs : go s c (s.pc c) = some (s', es)) : J s' (h ++ es) := by
  have hc := hj.calls c
  cases hpc : s.pc c with
  | none => rw [hpc] at hs; cases hs
  | defer todo res =>
    rw [hpc] at hs hc
    obtain ⟨pre, h1, h2⟩ := hc
    match todo with
    | none :: todo =>
      simp only [go] at hs; cases hs
      exact hj.move s.deferred (by simp) (by simp) (by simp [P])
    | some i :: todo =>
      simp only [go] at hs
      have hmem : i ∈ (s.arg c).filterMap id := by
        have : some i ∈ order (s.which c) (s.arg c) := by rw [h1]; simp
        simpa using mem_order.1 this
      split at hs
      · cases hs
        exact hj.move _ (by simp) (by simp) ⟨by simp, pre, h1, h2⟩
      split at hs
      · split at hs <;> cases hs
        · exact hj.move s.deferred (by simp) (by simp) (by simp [P])
        · exact hj.move s.deferred (by simp) (by simp) ⟨pre ++ [some i], by simp [h1], by simp⟩
      · next hw =>
        split at hs <;> cases hs
        · next hd => exact hj.move s.deferred (by simp) (by simp) (fun _ => ⟨fun a => absurd a hw, fun _ => ⟨i, hmem, hd⟩⟩)
        · exact hj.move s.deferred (by simp) (by simp) ⟨pre ++ [some i], by simp [h1], fun a => absurd a hw⟩
    | [] =>
      simp only [go] at hs; cases hs
      refine hj.move s.deferred (by simp) (by simp) ?_
      simp only [P]
      intro hi
      split at hi
      · next hw =>
        refine ⟨fun _ => ?_, fun a => by rw [hw] at a; cases a⟩
        have := h2 hw (by simpa using hi)
        intro x hx
        refine this x ?_
        have := (mem_order (w := s.which c)).2 hx
        rw [h1] at this; simpa using this
      · cases hi
  | running i todo res =>
    rw [hpc] at hs hc
    obtain ⟨h0, pre, h1, h2⟩ := hc
    simp only [go] at hs
    split at hs <;> cases hs
    next hd =>
    have hmem : i ∈ (s.arg c).filterMap id := by
      have : some i ∈ order (s.which c) (s.arg c) := by rw [h1]; simp
      simpa using mem_order.1 this
    refine hj.move s.deferred (by simp) (by simp) ?_
    split
    · exact ⟨pre ++ [some i], by simp [h1], fun a b => allDone_append (h2 a b) hd⟩
    · next hw => exact fun _ => ⟨fun a => absurd a hw, fun _ => ⟨i, hmem, hd⟩⟩
  | start inl =>
    rw [hpc] at hs hc
    simp only [go] at hs
    cases hs
    cases inl with
    | true => exact hj.move s.deferred (by simp) (by simp) ⟨fun _ => ⟨hc rfl, fun _ h => h⟩, by simp⟩
    | false => exact hj.move s.deferred (by simp) (by simp) ⟨by simp, by simp⟩
  | wait todo inl =>
    rw [hpc] at hs hc
    have fin : ∀ r, J (s.mark c r inl).1 (h ++ (s.mark c r inl).2) := by
      intro r
      refine hj.move s.deferred (es := [.ready c r]) (by simp) (by simp) ?_
      cases inl with
      | true => simp [P]
      | false => simp only [Bool.false_eq_true, if_false, P]; exact .inl (by simp [hc.2 rfl])
    simp only [go] at hs
    split at hs
    · split at hs
      · cases hs; exact fin _
      · cases hs; exact fin _
      · next i todo =>
        have h1 : inl = true → Fine s.done (s.which c) (s.arg c) ∧ ∀ x ∈ todo, x ∈ s.arg c := fun a => ⟨(hc.1 a).1, fun x hx => (hc.1 a).2 x (List.mem_cons_of_mem _ hx)⟩
        split at hs
        · cases hs
          exact hj.move _ (by simp) (by simp) ⟨by simp, h1, fun a => by simp [hc.2 a]⟩
        split at hs <;> cases hs
        exact hj.move s.deferred (by simp) (by simp) ⟨h1, fun a => by simp [hc.2 a]⟩
    · split at hs <;> cases hs
      exact fin _
  | exec i todo inl =>
    rw [hpc] at hs hc
    simp only [go] at hs
    split at hs <;> cases hs
    exact hj.move s.deferred (by simp) (by simp) ⟨hc.2.1, fun a => by simp [hc.2.2 a]⟩
  | returning =>
    rw [hpc] at hs
    simp only [go] at hs
    cases hs
    exact hj.move s.deferred (by simp) (by simp) (by simp [P])
  | finished => rw [hpc] at hs; cases hs
  | crashed => rw [hpc] at hs; cases hs

theorem j_step {s s' : State} {l : Label} {h es : List Event} (hj : J s h) (hs : step s l = some (s', es)) : J s' (h ++ es) := by
  cases l with
  | call c w fs =>
    simp only [step] at hs
    split at hs
    · split at hs <;> cases hs
      · refine ⟨fun d => ?_, fun i hi => hj.done i (by simpa using hi)⟩
        simp only [upd_apply]
        split
        · next hd => rw [hd]; simp [P]
        · next hd => exact (hj.calls d).mono (fun _ h => h) (by simp [hd])
      · refine ⟨fun d => ?_, fun i hi => hj.done i (by simpa using hi)⟩
        simp only [upd_apply]
        split
        · exact ⟨[], by simp [order], fun _ _ x hx => by cases hx⟩
        · next hd => exact (hj.calls d).mono (fun _ h => h) (by simp [hd])
    · cases hs
  | take i =>
    simp only [step] at hs
    split at hs <;> cases hs
    simp only [List.append_nil]
    exact ⟨hj.calls, hj.done⟩
  | finish i =>
    simp only [step] at hs
    split at hs <;> cases hs
    have hm : ∀ j, s.done j = true → upd s.done i true j = true := by
      intro j hj; simp only [upd_apply]; split
      · rfl
      · exact hj
    refine ⟨fun d => (hj.calls d).mono hm (by simp), fun j h1 => ?_⟩
    simp only [List.mem_append, List.mem_singleton, Event.done.injEq] at h1
    rcases h1 with h1 | h1
    · exact hm j (hj.done j h1)
    · simp [upd_apply, h1]
  | go c => exact j_go hj hs
  | fail c =>
    simp only [step] at hs
    split at hs <;> cases hs
    exact hj.move s.deferred (by simp) (by simp) (by simp [P])

/-- **C37 (non-blocking).** A call of `when_all` or `when_any` never waits for its inputs: as long as it has not returned, its thread can go on, unless it is itself executing the deferred function of an
input, which has not ended. -/
theorem calls_do_not_wait (d : Nat → Bool) (ls : List Label) (s : State) (es : List Event) (h : run step (init d) ls = some (s, es)) (c : Nat) (w : Which) (fs : List (Option Nat))
    (hc : .call c w fs ∈ es) (hr : .ret c ∉ es) (ht : .threw c ∉ es) (hx : .crash c ∉ es) :
    (∃ s' es', step s (.go c) = some (s', es')) ∨ ∃ i, .took c i ∈ es ∧ .done i ∉ es := by
  have hj : J s es := by simpa using run_inv_hist J (fun _ _ _ _ _ hi hs => j_step hi hs) (hist := []) (J.init d) h
  have hp := hj.calls c
  have away : ∀ i, .took c i ∈ es → s.done i = false → ∃ i, .took c i ∈ es ∧ .done i ∉ es := fun i h1 h2 => ⟨i, h1, fun h3 => by rw [hj.done i h3] at h2; cases h2⟩
  simp only [step]
  cases hpc : s.pc c with
  | none => rw [hpc] at hp; exact absurd hc (hp w fs)
  | defer todo res =>
    left
    match todo with
    | none :: todo => exact ⟨_, _, rfl⟩
    | some i :: todo => simp only [go]; (repeat' split) <;> exact ⟨_, _, rfl⟩
    | [] => exact ⟨_, _, rfl⟩
  | running i todo res =>
    rw [hpc] at hp
    cases hd : s.done i with
    | true => left; simp only [go, hd, if_true]; exact ⟨_, _, rfl⟩
    | false => exact .inr (away i hp.1 hd)
  | start inl => exact .inl ⟨_, _, rfl⟩
  | wait todo inl =>
    rw [hpc] at hp
    cases inl with
    | false => exact absurd (hp.2 rfl) hr
    | true =>
      left
      obtain ⟨hf, hm⟩ := hp.1 rfl
      simp only [go]
      split
      · next hw =>
        split
        · exact ⟨_, _, rfl⟩
        · exact ⟨_, _, rfl⟩
        · next i todo =>
          split
          · exact ⟨_, _, rfl⟩
          · obtain ⟨j, h1, h2⟩ := hf.1 hw (some i) (hm _ List.mem_cons_self)
            cases h1
            rw [if_pos h2]; exact ⟨_, _, rfl⟩
      · next hw =>
        rw [if_pos (hf.2 (by simpa using hw))]; exact ⟨_, _, rfl⟩
  | exec i todo inl =>
    rw [hpc] at hp
    cases hd : s.done i with
    | true => left; simp only [go, hd, if_true]; exact ⟨_, _, rfl⟩
    | false => exact .inr (away i hp.1 hd)
  | returning => exact .inl ⟨_, _, rfl⟩
  | finished => rw [hpc] at hp; rcases hp with h1 | h1 <;> contradiction
  | crashed => rw [hpc] at hp; exact absurd hp hx

/-- `when_any` of two futures neither of which is ready; the call has not returned yet. -/
example : ∃ s es, run step (init fun _ => false) [.call 0 ⟨false, false⟩ [some 0, some 1], .go 0, .go 0, .go 0] = some (s, es) ∧ .call 0 ⟨false, false⟩ [some 0, some 1] ∈ es ∧ .ret 0 ∉ es ∧ .threw 0 ∉ es ∧
    .crash 0 ∉ es ∧ s.done 0 = false ∧ s.done 1 = false := ⟨_, _, rfl, by decide, by decide, by decide, by decide, rfl, rfl⟩

end Verif.WhenAll
