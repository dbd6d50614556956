import Verif.WaitAny.Live
/-! # C36: wait_for_any identifies a ready future -/

set_option linter.unusedSimpArgs false

namespace Verif.WaitAny

/-- In no call for a range is there an invalid future. -/
def RangesValid (ls : List Label) : Prop := ∀ t fs, .call t true fs ∈ ls → none ∉ fs

/-- The specification never gives up on a history. -/
theorem always_known {σ : Spec} {es : List Event} (h : Accepts (next false) σ es) : ∃ σ', specState (next false) σ es = some σ' := by
  induction es generalizing σ with
  | nil => exact ⟨σ, rfl⟩
  | cons e es ih =>
    simp only [Accepts] at h
    cases hn : next false σ e with
    | ok σ' =>
      simp only [hn] at h
      obtain ⟨σ'', hσ⟩ := ih h
      exact ⟨σ'', by simp [specState, hn, hσ]⟩
    | illegal => simp [hn] at h
    | undefined =>
      exfalso
      cases e <;> simp only [next] at hn <;> (repeat' split at hn) <;> cases hn

theorem next_strict {σ σ' : Spec} {e : Event} (hσ : ∀ t seq fs, σ.call t = some (seq, fs) → seq = true → none ∉ fs) (he : ∀ t fs, e = .call t true fs → none ∉ fs) (h : next false σ e = .ok σ') :
    next true σ e = .ok σ' ∧ ∀ t seq fs, σ'.call t = some (seq, fs) → seq = true → none ∉ fs := by
  cases e with
  | call t seq fs =>
    simp only [next] at h
    split at h <;> cases h
    rename_i hc
    refine ⟨by simp only [next]; rw [if_pos hc], ?_⟩
    intro u seq' fs' hu hs
    simp only [upd_apply] at hu
    split at hu
    · cases hu; subst hs; exact he t fs rfl
    · exact hσ u seq' fs' hu hs
  | ready i =>
    simp only [next] at h
    split at h <;> cases h
    rename_i hc
    exact ⟨by simp only [next]; rw [if_neg hc], hσ⟩
  | ret t k =>
    simp only [next] at h
    cases hc : σ.call t with
    | none => rw [hc] at h; cases h
    | some c =>
      obtain ⟨seq, fs⟩ := c
      simp only [hc] at h
      split at h <;> cases h
      rename_i hr
      refine ⟨by simp only [next, hc]; rw [if_pos (right_strict (hσ t seq fs hc) hr)], ?_⟩
      intro u seq' fs' hu hs
      simp only [upd_apply] at hu
      split at hu
      · cases hu
      · exact hσ u seq' fs' hu hs
  | request t => simp only [next] at h; cases h; exact ⟨rfl, hσ⟩
  | interrupted t =>
    simp only [next] at h
    split at h <;> cases h
    rename_i hc
    refine ⟨by simp only [next]; rw [if_pos hc], ?_⟩
    intro u seq' fs' hu hs
    simp only [upd_apply] at hu
    split at hu
    · cases hu
    · exact hσ u seq' fs' hu hs

theorem accepts_strict {σ : Spec} {es : List Event} (h : Accepts (next false) σ es) (hσ : ∀ t seq fs, σ.call t = some (seq, fs) → seq = true → none ∉ fs) (hes : ∀ t fs, .call t true fs ∈ es → none ∉ fs) :
    Accepts (next true) σ es := by
  induction es generalizing σ with
  | nil => trivial
  | cons e es ih =>
    obtain ⟨σ'', hk⟩ := always_known h
    cases hn : next false σ e with
    | ok σ' =>
      obtain ⟨h1, h2⟩ := next_strict hσ (fun t fs he => hes t fs (by rw [he]; simp)) hn
      simp only [Accepts, hn] at h
      simp only [Accepts, h1]
      exact ih h h2 (fun t fs hm => hes t fs (List.mem_cons_of_mem _ hm))
    | illegal => simp [specState, hn] at hk
    | undefined => simp [specState, hn] at hk

/-- **C36 (what the code does).** Every call returns the position of a future that is ready; a call for a range counts only the valid futures. -/
theorem history_conforms (ls : List Label) (s : State) (es : List Event) (h : run step init ls = some (s, es)) : Accepts (next false) Spec.init es :=
  simulation Rel (fun _ _ _ _ _ hR hs => sim hR hs) (s := init) rel_init h

theorem call_mem {ls : List Label} {s s' : State} {es : List Event} (h : run step s ls = some (s', es)) {t : Nat} {seq : Bool} {fs : List (Option Nat)} (hm : .call t seq fs ∈ es) : .call t seq fs ∈ ls := by
  induction ls generalizing s es with
  | nil => simp only [run_nil, Option.some.injEq, Prod.mk.injEq] at h; rw [← h.2] at hm; cases hm
  | cons l ls ih =>
    obtain ⟨s1, es1, es2, hs, hr, rfl⟩ := run_cons h
    rcases List.mem_append.mp hm with hm | hm
    · refine List.mem_cons.mpr (.inl ?_)
      cases l with
      | call u seq' fs' => simp only [step] at hs; (repeat' split at hs) <;> cases hs <;> simp_all
      | finish i => simp only [step] at hs; split at hs <;> cases hs; simp at hm
      | wake t => simp only [step] at hs; split at hs <;> cases hs; simp at hm
      | interrupt t => simp only [step] at hs; cases hs; simp at hm
      | go u =>
        simp only [step] at hs
        unfold go at hs
        (repeat' split at hs) <;> cases hs <;> simp at hm
    · exact List.mem_cons_of_mem _ (ih hr hm)

/-- **C36 (identification).** If no range contains an invalid future, every call returns a position, in the caller's numbering, at which there is a future that is ready. -/
theorem history_conforms_partial (ls : List Label) (s : State) (es : List Event) (h : run step init ls = some (s, es)) (hv : RangesValid ls) : Accepts (next true) Spec.init es :=
  accepts_strict (history_conforms ls s es h) (by simp [Spec.init]) (fun t fs hm => hv t fs (call_mem h hm))

/-- **C36 (several futures).** A call with single futures, some of them perhaps invalid, returns the position of one that is ready: `es₂` does not contain the end of the call. -/
theorem returns_position_of_ready (ls : List Label) (s : State) (es₁ es₂ es₃ : List Event) (t k : Nat) (fs : List (Option Nat)) (h : run step init ls = some (s, es₁ ++ .call t false fs :: (es₂ ++ .ret t k :: es₃)))
    (hn : ∀ j, .ret t j ∉ es₂) (hni : .interrupted t ∉ es₂) : ∃ i, fs[k]? = some (some i) ∧ .ready i ∈ es₁ ++ es₂ := by
  have ha := history_conforms ls s _ h
  -- the specification remembers what has become ready, and the call
  have mem : ∀ (es : List Event) (σ σ' : Spec) (hist : List Event), (∀ i, σ.ready i = true → .ready i ∈ hist) → specState (next false) σ es = some σ' → ∀ i, σ'.ready i = true → .ready i ∈ hist ++ es := by
    intro es
    induction es with
    | nil => intro σ σ' hist h1 h2 i hi; simp only [specState, Option.some.injEq] at h2; subst h2; simpa using h1 i hi
    | cons e es ih =>
      intro σ σ' hist h1 h2 i hi
      simp only [specState] at h2
      cases hn : next false σ e with
      | ok τ =>
        rw [hn] at h2
        have := ih τ σ' (hist ++ [e]) ?_ h2 i hi
        · simpa using this
        · intro j hj
          cases e <;> simp only [next] at hn <;> (repeat' split at hn) <;> cases hn
          · simp [h1 j hj]
          · simp [h1 j hj]
          · simp only [upd_apply] at hj
            split at hj
            · rename_i e; subst e; simp
            · simp [h1 j hj]
          · simp [h1 j hj]
          · simp [h1 j hj]
      | undefined => rw [hn] at h2; cases h2
      | illegal => rw [hn] at h2; cases h2
  have keep : ∀ (es : List Event) (σ σ' : Spec), σ.call t = some (false, fs) → (∀ j, .ret t j ∉ es) → .interrupted t ∉ es → specState (next false) σ es = some σ' → σ'.call t = some (false, fs) := by
    intro es
    induction es with
    | nil => intro σ σ' h1 _ _ h2; simp only [specState, Option.some.injEq] at h2; subst h2; exact h1
    | cons e es ih =>
      intro σ σ' h1 hno hni h2
      simp only [specState] at h2
      cases hn : next false σ e with
      | ok τ =>
        rw [hn] at h2
        refine ih τ σ' ?_ (fun j hj => hno j (List.mem_cons_of_mem _ hj)) (fun hj => hni (List.mem_cons_of_mem _ hj)) h2
        cases e with
        | call u seq gs =>
          simp only [next] at hn
          split at hn <;> cases hn
          rename_i hc
          simp only [upd_apply]
          rw [if_neg (by rintro rfl; rw [h1] at hc; cases hc)]
          exact h1
        | ready i => simp only [next] at hn; split at hn <;> cases hn; exact h1
        | ret u j =>
          have hu : u ≠ t := by rintro rfl; exact hno j (by simp)
          simp only [next] at hn
          (repeat' split at hn) <;> cases hn
          simp only [upd_apply]
          rw [if_neg (fun e => hu e.symm)]
          exact h1
        | request u => simp only [next] at hn; cases hn; exact h1
        | interrupted u =>
          have hu : u ≠ t := by rintro rfl; exact hni (by simp)
          simp only [next] at hn
          (repeat' split at hn) <;> cases hn
          simp only [upd_apply]
          rw [if_neg (fun e => hu e.symm)]
          exact h1
      | undefined => rw [hn] at h2; cases h2
      | illegal => rw [hn] at h2; cases h2
  obtain ⟨σf, hσf⟩ := always_known ha
  rw [specState_append] at hσf
  cases h1 : specState (next false) Spec.init es₁ with
  | none => rw [h1] at hσf; cases hσf
  | some σ₁ =>
    rw [h1] at hσf
    simp only [Option.bind_some, specState] at hσf
    cases h2 : next false σ₁ (.call t false fs) with
    | undefined => rw [h2] at hσf; cases hσf
    | illegal => rw [h2] at hσf; cases hσf
    | ok σ₂ =>
      rw [h2] at hσf
      simp only [specState_append] at hσf
      cases h3 : specState (next false) σ₂ es₂ with
      | none => rw [h3] at hσf; cases hσf
      | some σ₃ =>
        rw [h3] at hσf
        simp only [Option.bind_some, specState] at hσf
        have hc : σ₂.call t = some (false, fs) ∧ σ₂.ready = σ₁.ready := by
          simp only [next] at h2
          split at h2 <;> cases h2
          simp [upd_apply]
        have hc3 := keep es₂ σ₂ σ₃ hc.1 hn hni h3
        have hr3 := mem es₂ σ₂ σ₃ es₁ (fun i hi => by rw [hc.2] at hi; simpa using mem es₁ Spec.init σ₁ [] (by simp [Spec.init]) h1 i hi) h3
        have hno : fs ≠ [] := by
          rintro rfl
          have := call_mem h (t := t) (seq := false) (fs := []) (by simp)
          -- such a call is not possible
          have hbad : ∀ (ls : List Label) (s s' : State) (es : List Event), run step s ls = some (s', es) → Label.call t false [] ∉ ls := by
            intro ls
            induction ls with
            | nil => intro _ _ _ _ h; cases h
            | cons l ls ih =>
              intro s s' es h hm
              obtain ⟨s1, es1, es2, hs, hr, rfl⟩ := run_cons h
              rcases List.mem_cons.mp hm with rfl | hm
              · simp [step] at hs
              · exact ih _ _ _ hr hm
          exact hbad ls _ _ _ h this
        simp only [next, hc3, right, if_neg hno, Bool.not_false, Bool.or_true, if_true] at hσf
        cases hk : fs[k]? with
        | none => simp [hk] at hσf
        | some x =>
          cases x with
          | none => simp [hk] at hσf
          | some i =>
            refine ⟨i, rfl, ?_⟩
            simp only [hk] at hσf
            cases hr : σ₃.ready i with
            | true => exact hr3 i hr
            | false => rw [hr] at hσf; cases hσf

/-- Three futures, one invalid; the third becomes ready while the call sleeps, and position 2 is returned. -/
example : ∃ ls s es, run step init ls = some (s, es) ∧ RangesValid ls ∧ es = [.call 1 false [some 4, none, some 5], .ready 5, .ret 1 2] := by
  refine ⟨[.call 1 false [some 4, none, some 5], .go 1, .go 1, .go 1, .go 1, .go 1, .go 1, .go 1, .go 1, .go 1, .finish 5, .go 1, .go 1, .go 1, .go 1, .go 1], _, _, rfl, ?_, by decide⟩
  intro t fs h
  simp at h

/-- The same for a range. -/
example : ∃ ls s es, run step init ls = some (s, es) ∧ RangesValid ls ∧ es = [.call 1 true [some 4, some 5], .ready 5, .ret 1 1] := by
  refine ⟨[.call 1 true [some 4, some 5], .go 1, .go 1, .go 1, .go 1, .go 1, .go 1, .go 1, .go 1, .finish 5, .go 1, .go 1, .go 1, .go 1, .go 1], _, _, rfl, ?_, by decide⟩
  intro t fs h
  simp only [List.mem_cons, Label.call.injEq, reduceCtorEq, false_or, or_false, List.not_mem_nil] at h
  obtain ⟨_, _, rfl⟩ := h
  simp

/-! ## Calls return -/

/-- All labels are steps of calls: nothing new is called, nothing becomes ready, and there is no spurious wake-up. -/
def OnlyGo (ls : List Label) : Prop := ∀ l ∈ ls, ∃ t, l = .go t

/-- **C36 (no endless work).** From every reachable state, the number of steps the calls can take by themselves is bounded. -/
theorem own_steps_bounded (ls : List Label) (s : State) (es : List Event) (h : run step init ls = some (s, es)) :
    ∃ B, ∀ ls' s' es', OnlyGo ls' → run step s ls' = some (s', es') → ls'.length ≤ B := by
  obtain ⟨T, hT⟩ := active_of_run h
  refine ⟨total s.intr s.pc T, ?_⟩
  clear h
  intro ls'
  induction ls' generalizing s with
  | nil => intros; simp
  | cons l ls' ih =>
    intro s' es' hg hr
    obtain ⟨t, rfl⟩ := hg l (by simp)
    obtain ⟨s1, es1, es2, hs, hr1, rfl⟩ := run_cons hr
    obtain ⟨_, _, p, b, hp, hb, hl⟩ := go_left hs
    have ht : t ∈ T := hT t (fun e => by rw [e] at hl; simp [left] at hl)
    have hT1 : ∀ u, s1.pc u ≠ .idle → u ∈ T := by
      intro u hu
      rw [hp] at hu
      simp only [upd_apply] at hu
      split at hu
      · rename_i e; rw [e]; exact ht
      · exact hT u hu
    have h1 := ih s1 hT1 s' es2 (fun l hl => hg l (List.mem_cons_of_mem _ hl)) hr1
    have h2 := total_upd_lt s.intr s.pc T t b p hl ht
    rw [← hp, ← hb] at h2
    simp only [List.length_cons]
    omega

/-- Interruption of thread `t` has been requested, or its call has come to its end. -/
def Good (s : State) (t : Nat) : Prop := s.intr t = true ∨ throwing (s.pc t) = true ∨ s.pc t = .idle ∨ ∃ ws n, s.pc t = .leaving ws n

theorem go_flags {s s' : State} {u : Nat} {es : List Event} (hs : go s u (s.pc u) = some (s', es)) :
    (Good s u → Good s' u) ∧ (s'.intr u = true ∨ throwing (s'.pc u) = true → s.intr u = true ∨ throwing (s.pc u) = true) := by
  unfold Good
  generalize hp : s.pc u = p at hs
  cases p with
  | idle => cases hs
  | adding rest n ws => rcases rest with _ | ⟨_ | j, rest⟩ <;> simp only [go] at hs <;> (repeat' split at hs) <;> cases hs <;> simp [upd_apply, throwing]
  | locking ws k => simp only [go] at hs; (repeat' split at hs) <;> cases hs <;> simp [upd_apply, throwing]
  | checking ws =>
    simp only [go] at hs
    split at hs <;> cases hs
    · simp [upd_apply, throwing]
    · simp [upd_apply, throwing]
  | pausing ws =>
    simp only [go] at hs
    split at hs <;> cases hs
    · rename_i hb; simp [upd_apply, throwing, hb]
    · rename_i hb; simp [upd_apply, throwing, hb]
  | asleep ws =>
    simp only [go] at hs
    split at hs <;> cases hs
    rename_i hb; simp [upd_apply, throwing, hb]
  | woken ws =>
    simp only [go] at hs
    split at hs
    · rename_i hb; cases hs; simp [upd_apply, throwing, hb]
    · rename_i hb
      split at hs <;> cases hs
      simp [upd_apply, throwing, hb]
  | leaving ws n => rcases ws with _ | ⟨⟨j, k⟩, ws⟩ <;> simp only [go] at hs <;> (repeat' split at hs) <;> cases hs <;> simp [upd_apply, throwing]
  | wokenI ws => simp only [go] at hs; (repeat' split at hs) <;> cases hs <;> simp [upd_apply, throwing]
  | dropping ws => simp only [go] at hs; cases hs; simp [upd_apply, throwing]
  | leavingI ws => rcases ws with _ | ⟨⟨j, k⟩, ws⟩ <;> simp only [go] at hs <;> (repeat' split at hs) <;> cases hs <;> simp [upd_apply, throwing]

/-- A call that has ended after steps of calls only has returned or thrown; without a request it has not thrown. -/
theorem ended {t : Nat} : ∀ (ls' : List Label) (s s' : State) (es' : List Event), OnlyGo ls' → run step s ls' = some (s', es') → s.pc t ≠ .idle → s'.pc t = .idle →
    (∃ k, .ret t k ∈ es') ∨ (.interrupted t ∈ es' ∧ (s.intr t = true ∨ throwing (s.pc t) = true)) := by
  intro ls'
  induction ls' with
  | nil =>
    intro s s' es' _ h1 h2 h3
    simp only [run_nil, Option.some.injEq, Prod.mk.injEq] at h1
    rw [← h1.1] at h3; exact absurd h3 h2
  | cons l ls' ih =>
    intro s s' es' hg h1 h2 h3
    obtain ⟨u, rfl⟩ := hg l (by simp)
    obtain ⟨s1, es1, es2, hs, hr1, rfl⟩ := run_cons h1
    by_cases hid : s1.pc t = .idle
    · have hut : u = t := by
        obtain ⟨_, _, p, _, hp, _⟩ := go_left hs
        rw [hp] at hid
        simp only [upd_apply] at hid
        split at hid
        · rename_i e; exact e.symm
        · exact absurd hid h2
      subst hut
      simp only [step] at hs
      cases hp : s.pc u with
      | idle => exact absurd hp h2
      | asleep ws => rw [hp] at hs; simp only [go] at hs; (repeat' split at hs) <;> cases hs <;> simp [upd_apply] at hid
      | adding rest n ws =>
        rw [hp] at hs
        rcases rest with _ | ⟨_ | j, rest⟩ <;> simp only [go] at hs <;> (repeat' split at hs) <;> cases hs <;> simp [upd_apply] at hid
      | locking ws k => rw [hp] at hs; simp only [go] at hs; (repeat' split at hs) <;> cases hs <;> simp [upd_apply] at hid
      | checking ws => rw [hp] at hs; simp only [go] at hs; (repeat' split at hs) <;> cases hs <;> simp [upd_apply] at hid
      | pausing ws => rw [hp] at hs; simp only [go] at hs; (repeat' split at hs) <;> cases hs <;> simp [upd_apply] at hid
      | woken ws => rw [hp] at hs; simp only [go] at hs; (repeat' split at hs) <;> cases hs <;> simp [upd_apply] at hid
      | wokenI ws => rw [hp] at hs; simp only [go] at hs; (repeat' split at hs) <;> cases hs <;> simp [upd_apply] at hid
      | dropping ws => rw [hp] at hs; simp only [go] at hs; cases hs; simp [upd_apply] at hid
      | leaving ws n =>
        rw [hp] at hs
        rcases ws with _ | ⟨⟨j, k⟩, ws⟩ <;> simp only [go] at hs <;> (repeat' split at hs) <;> cases hs
        · exact .inl ⟨n, by simp⟩
        · simp [upd_apply] at hid
      | leavingI ws =>
        rw [hp] at hs
        rcases ws with _ | ⟨⟨j, k⟩, ws⟩ <;> simp only [go] at hs <;> (repeat' split at hs) <;> cases hs
        · exact .inr ⟨by simp, .inr rfl⟩
        · simp [upd_apply] at hid
    · rcases ih s1 s' es2 (fun l hl => hg l (List.mem_cons_of_mem _ hl)) hr1 hid h3 with ⟨k, hk⟩ | ⟨hk, hb⟩
      · exact .inl ⟨k, List.mem_append_right _ hk⟩
      · refine .inr ⟨List.mem_append_right _ hk, ?_⟩
        simp only [step] at hs
        by_cases hut : u = t
        · subst hut
          exact (go_flags hs).2 hb
        · obtain ⟨_, _, p, b, hp, hi, _⟩ := go_left hs
          rw [hp, hi] at hb
          simpa [upd_apply, Ne.symm hut] using hb

/-- The end of a call one of whose futures is ready, or whose interruption has been requested. -/
theorem ends_if {r : Nat → Nat} {ls : List Label} {s : State} {es : List Event} (h : run step init ls = some (s, es)) (ho : Ordered r ls) {σ : Spec} (hσ : specState (next false) Spec.init es = some σ)
    {t : Nat} {seq : Bool} {fs : List (Option Nat)} (hc : σ.call t = some (seq, fs)) (hw : (∃ i, some i ∈ fs ∧ σ.ready i = true) ∨ s.intr t = true) {ls' : List Label} {s' : State} {es' : List Event} (hg : OnlyGo ls')
    (h' : run step s ls' = some (s', es')) (hend : ∀ u, step s' (.go u) = none) : (∃ k, .ret t k ∈ es') ∨ (.interrupted t ∈ es' ∧ 0 < σ.req t) := by
  have hR := simulation_state Rel (fun _ _ _ _ _ hR hs => sim hR hs) (s := init) rel_init h hσ
  have hne : s.pc t ≠ .idle := by intro e; have := hR.call t; rw [e, hc] at this; simp at this
  have harg : s.arg t = (seq, fs) := by have := hR.call t; rw [hc, if_neg hne] at this; exact (Option.some.inj this).symm
  -- steps of calls change neither arguments nor readiness
  have hinv := run_inv_on (step := step) (fun l => ∃ u, l = .go u) (fun s1 => s1.arg = s.arg ∧ s1.done = s.done ∧ (s.intr t = true → Good s1 t))
    (fun s1 l s2 es2 hP hI hs => by
      obtain ⟨u, rfl⟩ := hP
      obtain ⟨h1, h2, p, b, h3, h4, _⟩ := go_left hs
      refine ⟨h2.trans hI.1, h1.trans hI.2.1, fun hi => ?_⟩
      have hI3 := hI.2.2 hi
      by_cases hut : u = t
      · subst hut
        exact (go_flags hs).1 hI3
      · unfold Good at hI3 ⊢; rw [h3, h4]; simpa [upd_apply, Ne.symm hut] using hI3) (s := s) hg ⟨rfl, rfl, fun hi => .inl hi⟩ h'
  have hidle : s'.pc t = .idle := by
    -- the state in which nothing moves
    have hall : run step init (ls ++ ls') = some (s', es ++ es') := run_append h h'
    have hR' := history_conforms _ _ _ hall
    obtain ⟨σ', hσ'⟩ := always_known hR'
    have hRel' := simulation_state Rel (fun _ _ _ _ _ hR hs => sim hR hs) (s := init) rel_init hall hσ'
    have ho' : ArgOrd r s' := by
      intro u; rw [hinv.1]; exact argOrd_of_run h ho u
    obtain ⟨T, hT⟩ := active_of_run hall
    cases hp : s'.pc t with
    | idle => rfl
    | asleep ws =>
      exfalso
      rcases hw with ⟨i, hi, hr⟩ | hi
      · have h1 := hRel'.pcs t
        rw [hp, hinv.1, harg] at h1
        obtain ⟨h1, h2⟩ := h1
        have h3 : i ∈ ws.map Prod.fst := by
          rw [h1, waiters_fst]
          exact List.mem_filterMap.mpr ⟨some i, hi, rfl⟩
        obtain ⟨w, hw, rfl⟩ := List.mem_map.mp h3
        have h4 := h2 w hw
        rw [hinv.2.1, ← hR.ready, hr] at h4
        cases h4
      · have h1 := hinv.2.2 hi
        unfold Good at h1
        rw [hp] at h1
        have h2 : s'.intr t = true := by simpa [throwing] using h1
        have := hend t
        simp [step, hp, go, h2] at this
    | _ =>
      exfalso
      obtain ⟨v, hv⟩ := somebody_goes_on hRel' ho' hT (t := t) (by rw [hp]; simp) (by rw [hp]; simp)
      have := hend v
      simp only [step] at this
      rw [this] at hv
      cases hv
  rcases ended ls' s s' es' hg h' hne hidle with h1 | ⟨h1, h2⟩
  · exact .inl h1
  · refine .inr ⟨h1, ?_⟩
    have hq := hR.req t
    rcases h2 with h2 | h2 <;> simp only [h2, if_true] at hq <;> omega

/-- **C36 (it returns).** Suppose that all calls have their futures, without repetition, in one common order `r`. Let a thread be in a call, and one of its futures be ready. However the calls go on,
when none of them can take a step any more the call has returned, unless its interruption had been requested and it has thrown. With the bound above: it ends without any further action of the program,
whatever other threads wait for. -/
theorem returns_if_ready_partial (r : Nat → Nat) (ls : List Label) (s : State) (es : List Event) (h : run step init ls = some (s, es)) (ho : Ordered r ls) (σ : Spec) (hσ : specState (next false) Spec.init es = some σ)
    (t i : Nat) (seq : Bool) (fs : List (Option Nat)) (hc : σ.call t = some (seq, fs)) (hi : some i ∈ fs) (hr : σ.ready i = true) (ls' : List Label) (s' : State) (es' : List Event) (hg : OnlyGo ls')
    (h' : run step s ls' = some (s', es')) (hend : ∀ u, step s' (.go u) = none) : (∃ k, .ret t k ∈ es') ∨ (.interrupted t ∈ es' ∧ 0 < σ.req t) :=
  ends_if h ho hσ hc (.inl ⟨i, hi, hr⟩) hg h' hend

/-- **C36 (interruption).** Under the same condition on the order, a request for interruption ends a call, also when no future is ready: when nothing can take a step any more, the call has returned or thrown. -/
theorem interruption_ends_call_partial (r : Nat → Nat) (ls : List Label) (s : State) (es : List Event) (t : Nat) (h : run step init ls = some (s, es)) (ho : Ordered r ls) (σ : Spec)
    (hσ : specState (next false) Spec.init es = some σ) (hc : σ.call t ≠ none) (ls' : List Label) (s' : State) (es' : List Event) (hg : OnlyGo ls')
    (h' : run step s (.interrupt t :: ls') = some (s', es')) (hend : ∀ u, step s' (.go u) = none) : (∃ k, .ret t k ∈ es') ∨ .interrupted t ∈ es' := by
  have ho' : Ordered r (ls ++ [.interrupt t]) := by
    intro u seq fs hm
    rcases List.mem_append.mp hm with hm | hm
    · exact ho u seq fs hm
    · simp at hm
  obtain ⟨s1, es1, es2, hs, hr, rfl⟩ := run_cons h'
  have hs' := hs
  simp only [step] at hs
  cases hs
  have h1 := run_append h (ls' := [.interrupt t]) (s' := { s with intr := upd s.intr t true }) (run_step hs' rfl)
  have h2 : specState (next false) Spec.init (es ++ ([.request t] ++ [])) = some { σ with req := upd σ.req t (σ.req t + 1) } := by
    rw [specState_append, hσ]
    simp [specState, next]
  obtain ⟨c, hc⟩ := Option.ne_none_iff_exists'.mp hc
  rcases ends_if h1 ho' h2 (t := t) (seq := c.1) (fs := c.2) hc (.inr (by simp [upd_apply])) hg hr hend with h1 | h1
  · obtain ⟨k, hk⟩ := h1; exact .inl ⟨k, List.mem_append_right _ hk⟩
  · exact .inr (List.mem_append_right _ h1.1)

/-- **C36 (nothing is left behind).** When a call has ended, by returning or by the exception, no shared state refers to its condition variable any more, and it holds no mutex. -/
theorem nothing_left_behind (ls : List Label) (s : State) (es : List Event) (h : run step init ls = some (s, es)) (t : Nat) (hi : s.pc t = .idle) (i : Nat) : t ∉ s.reg i ∧ s.own i ≠ some t := by
  obtain ⟨σ, hσ⟩ := always_known (history_conforms ls s es h)
  have hR := simulation_state Rel (fun _ _ _ _ _ hR hs => sim hR hs) (s := init) rel_init h hσ
  constructor
  · have := hR.reg t i
    rw [hi] at this
    exact List.count_eq_zero.mp (by simpa [registered] using this)
  · intro ho
    have := (hR.own t i).mp ho
    rw [hi] at this
    simp [held] at this

/-- A call that sleeps is interrupted; the state becomes ready afterwards, and nobody is notified. -/
example : ∃ ls s es, run step init ls = some (s, es) ∧ Ordered id ls ∧ es = [.call 1 false [some 0, some 1], .request 1, .interrupted 1, .ready 0] ∧ s.pc 1 = .idle ∧ s.reg 0 = [] := by
  refine ⟨[.call 1 false [some 0, some 1], .go 1, .go 1, .go 1, .go 1, .go 1, .go 1, .go 1, .go 1, .interrupt 1, .go 1, .go 1, .go 1, .go 1, .go 1, .go 1, .finish 0], _, _, rfl, ?_, by decide, rfl, rfl⟩
  intro t seq fs h
  simp only [List.mem_cons, Label.call.injEq, reduceCtorEq, false_or, or_false, List.not_mem_nil] at h
  obtain ⟨_, _, rfl⟩ := h
  decide

/-- Two threads wait for futures in the same order; one future becomes ready, and both return. -/
example : ∃ ls s es, run step init ls = some (s, es) ∧ Ordered id ls ∧ .ret 1 1 ∈ es ∧ .ret 2 0 ∈ es := by
  refine ⟨[.call 1 false [some 0, some 1], .call 2 false [some 1, some 2], .go 1, .go 1, .go 1, .go 2, .go 2, .go 2, .go 1, .go 2, .go 2, .go 2, .go 2, .go 2, .go 1, .go 1, .go 1, .go 1, .finish 1,
    .go 1, .go 1, .go 2, .go 2, .go 2, .go 2, .go 2, .go 1, .go 1, .go 1], _, _, rfl, ?_, by decide, by decide⟩
  intro t seq fs h
  simp only [List.mem_cons, Label.call.injEq, reduceCtorEq, false_or, or_false, List.not_mem_nil] at h
  rcases h with ⟨_, _, rfl⟩ | ⟨_, _, rfl⟩ <;> decide

/-! ## What the code does not do -/

/-- **C36 fails:** in a range that begins with an invalid future, the position returned is that of a future that is not ready. -/
theorem not_position_in_range : ∃ ls s es, run step init ls = some (s, es) ∧ es = [.ready 5, .call 1 true [none, some 4, some 5], .ret 1 1] ∧ ¬ Accepts (next true) Spec.init es := by
  exact ⟨[.finish 5, .call 1 true [none, some 4, some 5], .go 1, .go 1, .go 1, .go 1, .go 1, .go 1, .go 1, .go 1, .go 1, .go 1, .go 1], _, _, rfl, by decide, by decide⟩

/-- Thread `t` never returns from its call, and it throws nothing, as long as everything that happens is allowed by `P`. -/
def NeverReturnsIf (P : Label → Prop) (s : State) (t : Nat) : Prop := s.pc t ≠ .idle ∧ ∀ ls s' es, (∀ l ∈ ls, P l) → run step s ls = some (s', es) → (∀ k, .ret t k ∉ es) ∧ .interrupted t ∉ es

/-- Thread `t` never returns from its call, whatever happens. -/
def NeverReturns (s : State) (t : Nat) : Prop := NeverReturnsIf (fun _ => True) s t

/-- How a call can be stuck: a property of the state that every step keeps and in which thread `t` is not at the end of its call. -/
theorem neverReturns_of_inv {s : State} {t : Nat} {P : Label → Prop} (I : State → Prop) (hI : ∀ s l s' es, P l → I s → step s l = some (s', es) → I s')
    (hp : ∀ s, I s → s.pc t ≠ .idle ∧ (∀ n, s.pc t ≠ .leaving [] n) ∧ s.pc t ≠ .leavingI []) (h : I s) : NeverReturnsIf P s t := by
  refine ⟨(hp s h).1, ?_⟩
  intro ls
  induction ls generalizing s with
  | nil => intro s' es _ h1; simp only [run_nil, Option.some.injEq, Prod.mk.injEq] at h1; rw [← h1.2]; simp
  | cons l ls ih =>
    intro s' es hP h1
    obtain ⟨s1, es1, es2, hs, hr, rfl⟩ := run_cons h1
    have h2 := ih (hI s l s1 es1 (hP l (by simp)) h hs) s' es2 (fun l hl => hP l (List.mem_cons_of_mem _ hl)) hr
    have key : (∀ k, .ret t k ∉ es1) ∧ .interrupted t ∉ es1 := by
      cases l with
      | call u seq fs =>
        simp only [step] at hs
        (repeat' split at hs) <;> cases hs <;> simp
        rename_i hid _ _
        rintro rfl
        exact (hp s h).1 hid
      | finish i => simp only [step] at hs; split at hs <;> cases hs; simp
      | wake u => simp only [step] at hs; split at hs <;> cases hs; simp
      | interrupt u => simp only [step] at hs; cases hs; simp
      | go u =>
        simp only [step] at hs
        unfold go at hs
        (repeat' split at hs) <;> cases hs <;> simp
        · rename_i n hpc
          rintro rfl
          exact absurd hpc ((hp s h).2.1 n)
        · rename_i hpc
          rintro rfl
          exact (hp s h).2.2 hpc
    exact ⟨fun k hm => (List.mem_append.mp hm).elim (key.1 k) (h2.1 k), fun hm => (List.mem_append.mp hm).elim key.2 h2.2⟩

/-- What a step leaves alone: the mutexes held by other threads, and calls that are about to lock a mutex that is held. -/
theorem stuck_step {s s' : State} {l : Label} {es : List Event} (hs : step s l = some (s', es)) {t i n k : Nat} {ws : List (Nat × Nat)} (hp : s.pc t = .locking ws k) (hk : ws[k]? = some (i, n)) {u : Nat} (ho : s.own i = some u) :
    s'.pc t = .locking ws k ∧ ∀ j, s.own j = some t → s'.own j = some t := by
  cases l with
  | call v seq fs =>
    simp only [step] at hs
    (repeat' split at hs) <;> cases hs
    · exact ⟨hp, fun _ h => h⟩
    · refine ⟨?_, fun _ h => h⟩
      simp only [upd_apply]
      split
      · rename_i hid _ e; rw [← e, hp] at hid; cases hid
      · exact hp
  | finish j =>
    simp only [step] at hs
    split at hs <;> cases hs
    exact ⟨by simp [notify, hp], fun _ h => h⟩
  | wake v =>
    simp only [step] at hs
    split at hs <;> cases hs
    rename_i hw
    refine ⟨?_, fun _ h => h⟩
    simp only [upd_apply]
    split
    · rename_i e; rw [← e, hp] at hw; cases hw
    · exact hp
  | interrupt v => simp only [step] at hs; cases hs; exact ⟨hp, fun _ h => h⟩
  | go v =>
    have hv : v ≠ t := by
      rintro rfl
      simp [step, hp, go, hk, ho] at hs
    refine ⟨?_, ?_⟩
    · obtain ⟨_, _, p, _, hpc, _⟩ := go_left hs
      rw [hpc]; simp [upd_apply, Ne.symm hv, hp]
    intro j hj
    simp only [step] at hs
    unfold go at hs
    (repeat' split at hs) <;> cases hs <;> try exact hj
    · rename_i hf
      simp only [upd_apply]
      split
      · rename_i e; subst e; rw [hj] at hf; cases hf
      · exact hj
    · simp [release, hj, Ne.symm hv]
    · simp [release, hj, Ne.symm hv]
    · rename_i hf
      simp only [acquire]
      split
      · rename_i hm
        obtain ⟨w, hw, rfl⟩ := List.mem_map.mp hm
        rw [hf w hw] at hj; cases hj
      · exact hj
    · rename_i hf
      simp only [acquire]
      split
      · rename_i hm
        obtain ⟨w, hw, rfl⟩ := List.mem_map.mp hm
        rw [hf w hw] at hj; cases hj
      · exact hj
    · simp [release, hj, Ne.symm hv]

/-- **C36 fails:** two threads that wait for the same two futures in opposite orders can block each other for ever, although one of the futures is ready; and nobody can make the other one ready. -/
theorem not_opposite_orders : ∃ ls s es, run step init ls = some (s, es) ∧ es = [.ready 0, .call 1 false [some 0, some 1], .call 2 false [some 1, some 0]] ∧ NeverReturns s 1 ∧ NeverReturns s 2 ∧ step s (.finish 1) = none := by
  refine ⟨[.finish 0, .call 1 false [some 0, some 1], .call 2 false [some 1, some 0], .go 1, .go 1, .go 1, .go 2, .go 2, .go 2, .go 1, .go 2], _, _, rfl, by decide, ?_, ?_, rfl⟩
  · refine neverReturns_of_inv (fun s => s.pc 1 = .locking [(0, 0), (1, 1)] 1 ∧ s.pc 2 = .locking [(1, 0), (0, 1)] 1 ∧ s.own 0 = some 1 ∧ s.own 1 = some 2) ?_ ?_ ⟨rfl, rfl, rfl, rfl⟩
    · intro s l s' es _ ⟨h1, h2, h3, h4⟩ hs
      obtain ⟨a1, a2⟩ := stuck_step hs h1 (by rfl) h4
      obtain ⟨b1, b2⟩ := stuck_step hs h2 (by rfl) h3
      exact ⟨a1, b1, a2 0 h3, b2 1 h4⟩
    · intro s ⟨h1, _⟩; simp [h1]
  · refine neverReturns_of_inv (fun s => s.pc 1 = .locking [(0, 0), (1, 1)] 1 ∧ s.pc 2 = .locking [(1, 0), (0, 1)] 1 ∧ s.own 0 = some 1 ∧ s.own 1 = some 2) ?_ ?_ ⟨rfl, rfl, rfl, rfl⟩
    · intro s l s' es _ ⟨h1, h2, h3, h4⟩ hs
      obtain ⟨a1, a2⟩ := stuck_step hs h1 (by rfl) h4
      obtain ⟨b1, b2⟩ := stuck_step hs h2 (by rfl) h3
      exact ⟨a1, b1, a2 0 h3, b2 1 h4⟩
    · intro s ⟨_, h1, _⟩; simp [h1]

/-- **C36 fails:** a thread that waits for the same state twice (two shared futures) blocks itself for ever, although the state is ready. -/
theorem not_duplicates : ∃ ls s es, run step init ls = some (s, es) ∧ es = [.ready 0, .call 1 false [some 0, some 0]] ∧ NeverReturns s 1 := by
  refine ⟨[.finish 0, .call 1 false [some 0, some 0], .go 1, .go 1, .go 1, .go 1], _, _, rfl, by decide, ?_⟩
  refine neverReturns_of_inv (fun s => s.pc 1 = .locking [(0, 0), (0, 1)] 1 ∧ s.own 0 = some 1) ?_ ?_ ⟨rfl, rfl⟩
  · intro s l s' es _ ⟨h1, h2⟩ hs
    obtain ⟨a1, a2⟩ := stuck_step hs h1 (by rfl) h2
    exact ⟨a1, a2 0 h2⟩
  · intro s ⟨h1, _⟩; simp [h1]

/-- **C36, remark:** a call with only invalid futures never returns, unless it is interrupted. -/
theorem only_invalid_never_returns (seq : Bool) : ∃ ls s es, run step init ls = some (s, es) ∧ es = [.call 1 seq [none, none]] ∧ NeverReturnsIf (fun l => l ≠ .interrupt 1) s 1 := by
  refine ⟨[.call 1 seq [none, none], .go 1, .go 1, .go 1], _, _, rfl, rfl, ?_⟩
  refine neverReturns_of_inv (fun s => s.intr 1 = false ∧ (s.pc 1 = .locking [] 0 ∨ s.pc 1 = .checking [] ∨ s.pc 1 = .pausing [] ∨ s.pc 1 = .asleep [] ∨ s.pc 1 = .woken [])) ?_ ?_ ⟨rfl, .inl rfl⟩
  · intro s l s' es hP ⟨hb, h⟩ hs
    cases l with
    | call v seq fs =>
      simp only [step] at hs
      (repeat' split at hs) <;> cases hs
      · exact ⟨hb, h⟩
      · have : v ≠ 1 := by rintro rfl; simp_all
        exact ⟨hb, by simpa [upd_apply, Ne.symm this] using h⟩
    | finish j =>
      simp only [step] at hs
      split at hs <;> cases hs
      refine ⟨hb, ?_⟩
      rcases h with h | h | h | h | h <;> simp only [notify, h]
      · simp
      · simp
      · simp
      · split <;> simp
      · simp
    | wake v =>
      simp only [step] at hs
      split at hs <;> cases hs
      rename_i ws hw
      refine ⟨hb, ?_⟩
      by_cases hv : v = 1
      · subst hv
        rcases h with h | h | h | h | h <;> rw [hw] at h <;> cases h
        simp [upd_apply]
      · simpa [upd_apply, Ne.symm hv] using h
    | interrupt v =>
      have hv : v ≠ 1 := by rintro rfl; exact hP rfl
      simp only [step] at hs
      cases hs
      exact ⟨by simpa [upd_apply, Ne.symm hv] using hb, h⟩
    | go v =>
      by_cases hv : v = 1
      · subst hv
        simp only [step] at hs
        rcases h with h | h | h | h | h <;> rw [h] at hs <;> simp [go, hb] at hs
        · obtain ⟨rfl, _⟩ := hs; simp [upd_apply, hb]
        · obtain ⟨rfl, _⟩ := hs; simp [upd_apply, hb]
        · obtain ⟨rfl, _⟩ := hs; simp [upd_apply, hb]
        · obtain ⟨rfl, _⟩ := hs; simp [upd_apply, hb]
      · obtain ⟨_, _, p, b, hpc, hi, _⟩ := go_left hs
        rw [hpc, hi]
        simpa [upd_apply, Ne.symm hv] using And.intro hb h
  · rintro s ⟨_, h | h | h | h | h⟩ <;> simp [h]

end Verif.WaitAny
