import Verif.Helping.Sim
/-!
# Property C84: `reschedule_until`

`reschedule_until(pred)` carries out queued closures one by one in the order of their submission, asks the predicate after each, returns true as soon as the predicate holds and only then, and returns
false only when nothing is queued. It never waits.
-/

namespace Verif.Helping

/-- **C84.** Every history of `loop_executor` and `basic_thread_pool` conforms. -/
theorem conforms (ls : List Label) (s : State) (es : List Event) (h : run (step false) init ls = some (s, es)) : Accepts (next true) Spec.init es :=
  simulation R (fun _ _ _ _ _ hR hs => sim hR hs) R.init h

/-- **C84**, for `user_scheduler`: missing is that false is returned only when nothing is queued; a closure that throws has the same effect. -/
theorem conforms_partial (ls : List Label) (s : State) (es : List Event) (h : run (step true) init ls = some (s, es)) : Accepts (next false) Spec.init es :=
  simulation R (fun _ _ _ _ _ hR hs => sim hR hs) R.init h

/-- Closure 0 is run by thread 0, which calls `reschedule_until` in it; closure 1 submits closure 2 and calls `reschedule_until` in turn; thread 1 takes closure 3. -/
def demo : List Label :=
  [.submit 9, .submit 9, .take 0, .start 0, .call 0, .look 0, .start 0, .submit 0, .submit 0, .call 0, .look 0, .take 1, .start 1, .start 0, .finish 0, .finish 1, .pred 0 false, .look 0, .finish 0,
   .pred 0 true, .finish 0]

example : (run (step false) init demo).map (·.2) =
    some [.submitted 9 0, .submitted 9 1, .took 0 0, .started 0 0, .called 0, .took 0 1, .started 0 1, .submitted 0 2, .submitted 0 3, .called 0, .took 0 2, .took 1 3, .started 1 3, .started 0 2,
      .ended 0 2, .ended 1 3, .predIs 0 false, .returned 0 false, .ended 0 1, .predIs 0 true, .returned 0 true, .ended 0 0] := by decide +kernel

example : (run (step true) init demo).isSome := by decide +kernel

/-! ## What the result says -/

theorem ok_of {strict : Bool} {es : List Event} {σ : Spec} (h : Accepts (next strict) σ es) : ∃ σ', specState (next strict) σ es = some σ' := by
  apply h.specState_isSome
  clear h
  induction es generalizing σ with
  | nil => trivial
  | cons e es ih =>
    simp only [ClientOk]
    split
    · exact ih
    · next hn =>
      simp only [next] at hn
      split at hn
      · split at hn <;> cases hn
      · cases e <;> simp only [live] at hn <;> (repeat' split at hn) <;> cases hn
    · trivial

/-- The state before an event of an accepted history. -/
theorem at_event {strict : Bool} {pre post : List Event} {e : Event} (h : Accepts (next strict) Spec.init (pre ++ e :: post)) :
    ∃ σ σ', specState (next strict) Spec.init pre = some σ ∧ next strict σ e = .ok σ' := by
  obtain ⟨τ, hτ⟩ := ok_of h
  rw [specState_append] at hτ
  cases hp : specState (next strict) Spec.init pre with
  | none => rw [hp] at hτ; cases hτ
  | some σ =>
    rw [hp] at hτ
    simp only [Option.bind_some, specState] at hτ
    cases hn : next strict σ e with
    | ok σ' => exact ⟨σ, σ', rfl, hn⟩
    | undefined => rw [hn] at hτ; cases hτ
    | illegal => rw [hn] at hτ; cases hτ

/-- What can be due, and why. -/
theorem due_cause {strict : Bool} {σ σ' : Spec} {e d : Event} (h : next strict σ e = .ok σ') (hd : σ'.due = some d) (h0 : σ.due = none ∨ e = .terminated ∨ ∃ t b, e = .returned t b) :
    (∃ t, d = .returned t true ∧ e = .predIs t true) ∨ (∃ t c, d = .terminated ∧ e = .threw t c) ∨ (∃ t c, d = .returned t false ∧ e = .threw t c ∧ strict = false) := by
  simp only [next] at h
  split at h
  · split at h <;> cases h
    cases hd
  · next hn =>
    cases e <;> simp only [live] at h <;> (repeat' split at h) <;> cases h <;> simp_all

theorem due_origin {strict : Bool} {pre : List Event} {σ : Spec} {d : Event} (h : specState (next strict) Spec.init pre = some σ) (hd : σ.due = some d) :
    ∃ pre' e, pre = pre' ++ [e] ∧
      ((∃ t, d = .returned t true ∧ e = .predIs t true) ∨ (∃ t c, d = .terminated ∧ e = .threw t c) ∨ (∃ t c, d = .returned t false ∧ e = .threw t c ∧ strict = false)) := by
  rcases List.eq_nil_or_concat pre with rfl | ⟨pre', e, rfl⟩
  · cases h; cases hd
  · refine ⟨pre', e, by simp, ?_⟩
    rw [List.concat_eq_append, specState_append] at h
    cases hp : specState (next strict) Spec.init pre' with
    | none => rw [hp] at h; cases h
    | some τ =>
      rw [hp] at h
      simp only [Option.bind_some, specState] at h
      cases hn : next strict τ e with
      | ok σ' =>
        rw [hn] at h
        cases h
        simp only [next] at hn
        cases hτ : τ.due with
        | some x =>
          rw [hτ] at hn
          simp only at hn
          split at hn <;> cases hn
          cases hd
        | none => exact due_cause (by simp only [next]; exact hn) hd (.inl hτ)
      | undefined => rw [hn] at h; cases h
      | illegal => rw [hn] at h; cases h

/-- **C84 (true).** `reschedule_until` returns true only immediately after its predicate has answered true. -/
theorem true_means_pred (us : Bool) (ls : List Label) (s : State) (es pre post : List Event) (t : Nat) (h : run (step us) init ls = some (s, es)) (he : es = pre ++ .returned t true :: post) :
    ∃ pre', pre = pre' ++ [.predIs t true] := by
  have ha : Accepts (next (!us)) Spec.init es := simulation R (fun _ _ _ _ _ hR hs => sim hR hs) R.init h
  rw [he] at ha
  obtain ⟨σ, σ', h1, h2⟩ := at_event ha
  simp only [next] at h2
  cases hd : σ.due with
  | none =>
    rw [hd] at h2
    simp only [live] at h2
    split at h2
    · simp at h2
    · cases h2
  | some d =>
    rw [hd] at h2
    simp only at h2
    split at h2
    · next hx =>
      obtain ⟨pre', e, hp, ⟨u, h3, h4⟩ | ⟨u, c, h3, -⟩ | ⟨u, c, h3, -⟩⟩ := due_origin h1 hd
      · rw [← hx] at h3
        cases h3
        exact ⟨pre', by rw [hp, h4]⟩
      · rw [← hx] at h3; cases h3
      · rw [← hx] at h3; cases h3
    · cases h2

example : ∃ s es pre post, run (step false) init demo = some (s, es) ∧ es = pre ++ .returned 0 true :: post := ⟨_, _, [_, _, _, _, _, _, _, _, _, _, _, _, _, _, _, _, _, _, _, _], _, rfl, rfl⟩

/-- How many closures have been accepted. -/
def accepted (es : List Event) : Nat := (es.filter fun | .submitted _ _ => true | _ => false).length

/-- How many closures have been taken out of the queue. -/
def taken (es : List Event) : Nat := (es.filter fun | .took _ _ => true | _ => false).length

theorem counts {strict : Bool} {es : List Event} {σ σ' : Spec} (h : specState (next strict) σ es = some σ')
    (hd : ∀ d, σ.due = some d → d = .terminated ∨ ∃ t b, d = .returned t b) : σ'.acc = σ.acc + accepted es ∧ σ'.taken = σ.taken + taken es := by
  induction es generalizing σ with
  | nil => cases h; exact ⟨rfl, rfl⟩
  | cons e es ih =>
    simp only [specState] at h
    cases hn : next strict σ e with
    | undefined => rw [hn] at h; cases h
    | illegal => rw [hn] at h; cases h
    | ok τ =>
      rw [hn] at h
      have hkey : (τ.acc = σ.acc + accepted [e] ∧ τ.taken = σ.taken + taken [e]) ∧ ∀ d, τ.due = some d → d = .terminated ∨ ∃ t b, d = .returned t b := by
        simp only [next] at hn
        cases hx : σ.due with
        | some d =>
          rw [hx] at hn
          simp only at hn
          split at hn
          · next hed =>
            cases hn
            refine ⟨?_, fun d h => by cases h⟩
            rcases hd d hx with h1 | ⟨t, b, h1⟩ <;> rw [hed, h1] <;> exact ⟨rfl, rfl⟩
          · cases hn
        | none =>
          rw [hx] at hn
          cases e <;> simp only [live] at hn <;> (repeat' split at hn) <;> cases hn <;> simp_all [accepted, taken]
      have := ih h hkey.2
      have e1 : accepted (e :: es) = accepted [e] + accepted es := by simp only [accepted, List.filter_cons, List.filter_nil]; split <;> simp [Nat.add_comm]
      have e2 : taken (e :: es) = taken [e] + taken es := by simp only [taken, List.filter_cons, List.filter_nil]; split <;> simp [Nat.add_comm]
      omega

/-- **C84 (false).** In `loop_executor` and `basic_thread_pool` `reschedule_until` returns false only at a moment at which every closure accepted so far has been taken. -/
theorem false_means_empty (ls : List Label) (s : State) (es pre post : List Event) (t : Nat) (h : run (step false) init ls = some (s, es)) (he : es = pre ++ .returned t false :: post) :
    taken pre = accepted pre := by
  have ha := conforms ls s es h
  rw [he] at ha
  obtain ⟨σ, σ', h1, h2⟩ := at_event ha
  have hc := counts h1 (fun d hd => by cases hd)
  simp only [next] at h2
  cases hd : σ.due with
  | none =>
    rw [hd] at h2
    simp only [live] at h2
    split at h2
    · split at h2
      · next h3 => have := h3.2; simp only [Spec.init] at hc; omega
      · cases h2
    · cases h2
  | some d =>
    rw [hd] at h2
    simp only at h2
    split at h2
    · next hx =>
      obtain ⟨pre', e, hp, ⟨u, h3, h4⟩ | ⟨u, c, h3, -⟩ | ⟨u, c, h3, h4, h5⟩⟩ := due_origin h1 hd
      · rw [← hx] at h3; cases h3
      · rw [← hx] at h3; cases h3
      · cases h5
    · cases h2

example : ∃ s es pre post, run (step false) init demo = some (s, es) ∧ es = pre ++ .returned 0 false :: post := ⟨_, _, [_, _, _, _, _, _, _, _, _, _, _, _, _, _, _, _, _], _, rfl, rfl⟩

/-! ## Each closure at most once -/

/-- The closures that have been invoked, in order. -/
def invoked : List Event → List Nat
  | [] => []
  | .started _ c :: es => c :: invoked es
  | _ :: es => invoked es

theorem invoked_append (a b : List Event) : invoked (a ++ b) = invoked a ++ invoked b := by
  induction a with
  | nil => rfl
  | cons e a ih => cases e <;> simp [invoked, ih]

def isHold : Frame → Bool
  | .holds _ _ => true
  | _ => false

structure Once (s : State) (I : List Nat) : Prop where
  nodup : I.Nodup
  qnodup : s.q.Nodup
  old : ∀ c ∈ I, c < s.next ∧ c ∉ s.q
  queued : ∀ c ∈ s.q, c < s.next
  held : ∀ t c b, .holds c b ∈ s.stk t → c < s.next ∧ c ∉ s.q ∧ c ∉ I
  uniq : ∀ t u c b b', .holds c b ∈ s.stk t → .holds c b' ∈ s.stk u → t = u
  top : ∀ t f fs, s.stk t = f :: fs → ∀ x ∈ fs, isHold x = false

theorem Once.init : Once init [] := by constructor <;> simp [Helping.init]

/-- A thread's stack changes without a new closure in hand. -/
theorem Once.swap {s : State} {I : List Nat} (h : Once s I) {t : Nat} {fs : List Frame} (h1 : ∀ x ∈ fs, isHold x = true → x ∈ s.stk t) (h2 : ∀ f gs, fs = f :: gs → ∀ x ∈ gs, isHold x = false) :
    Once { s with stk := upd s.stk t fs } I := by
  have hm : ∀ u c b, Frame.holds c b ∈ upd s.stk t fs u → Frame.holds c b ∈ s.stk u := by
    intro u c b hx
    simp only [upd_apply] at hx
    split at hx
    · next hu => rw [hu]; exact h1 _ hx rfl
    · exact hx
  refine ⟨h.nodup, h.qnodup, h.old, h.queued, fun u c b hx => h.held u c b (hm u c b hx), fun u v c b b' hx hy => h.uniq u v c b b' (hm u c b hx) (hm v c b' hy), ?_⟩
  intro u f gs hu
  simp only [upd_apply] at hu
  split at hu
  · exact h2 f gs hu
  · exact h.top u f gs hu

/-- A closure is taken from the queue. -/
theorem Once.pull {s : State} {I : List Nat} (h : Once s I) {t c : Nat} {b : Bool} {q : List Nat} {fs : List Frame} (hq : s.q = c :: q) (hf : ∀ x ∈ fs, isHold x = false) :
    Once { s with q := q, stk := upd s.stk t (.holds c b :: fs) } I := by
  have hcq : c ∈ s.q := by rw [hq]; exact List.mem_cons_self
  have hsub : ∀ d, d ∈ q → d ∈ s.q := by intro d hd; rw [hq]; exact List.mem_cons_of_mem _ hd
  have hn := h.qnodup
  rw [hq, List.nodup_cons] at hn
  have hfs : ∀ d b', Frame.holds d b' ∉ fs := fun d b' hx => by have := hf _ hx; cases this
  have hold : ∀ u d b', Frame.holds d b' ∈ upd s.stk t (.holds c b :: fs) u → (u = t ∧ d = c) ∨ (u ≠ t ∧ Frame.holds d b' ∈ s.stk u) := by
    intro u d b' hx
    simp only [upd_apply] at hx
    split at hx
    · next hu =>
      rcases List.mem_cons.1 hx with h1 | h1
      · injection h1 with h2 h3; exact .inl ⟨hu, h2⟩
      · exact absurd h1 (hfs d b')
    · next hu => exact .inr ⟨hu, hx⟩
  refine ⟨h.nodup, hn.2, fun d hd => ⟨(h.old d hd).1, fun hx => (h.old d hd).2 (hsub d hx)⟩, fun d hd => h.queued d (hsub d hd), ?_, ?_, ?_⟩
  · intro u d b' hx
    rcases hold u d b' hx with ⟨-, rfl⟩ | ⟨-, h1⟩
    · exact ⟨h.queued _ hcq, hn.1, fun hx => (h.old _ hx).2 hcq⟩
    · have := h.held u d b' h1
      exact ⟨this.1, fun hx => this.2.1 (hsub d hx), this.2.2⟩
  · intro u v d b1 b2 hx hy
    rcases hold u d b1 hx with ⟨rfl, rfl⟩ | ⟨h0, h1⟩ <;> rcases hold v _ b2 hy with ⟨rfl, h2⟩ | ⟨h2, h3⟩
    · rfl
    · exact absurd hcq (h.held v _ b2 h3).2.1
    · subst h2; exact absurd hcq (h.held u _ b1 h1).2.1
    · exact h.uniq u v d b1 b2 h1 h3
  · intro u f gs hu
    simp only [upd_apply] at hu
    split at hu
    · injection hu with h1 h2; rw [← h2]; exact hf
    · exact h.top u f gs hu

theorem noHold {s : State} {I : List Nat} (h : Once s I) {t : Nat} (hm : mayCall s t = true) : ∀ x ∈ s.stk t, isHold x = false := by
  intro x hx
  cases hs : s.stk t with
  | nil => rw [hs] at hx; cases hx
  | cons f fs =>
    rw [hs] at hx
    rcases List.mem_cons.1 hx with rfl | h1
    · simp only [mayCall, hs] at hm
      cases x <;> simp_all [isHold]
    · exact h.top t f fs hs x h1

theorem once_step {us : Bool} {s s' : State} {l : Label} {es : List Event} {I : List Nat} (h : Once s I) (hs : step us s l = some (s', es)) : Once s' (I ++ invoked es) := by
  have pop : ∀ t f fs, s.stk t = f :: fs → ∀ g, isHold g = false → Once { s with stk := upd s.stk t (g :: fs) } I := by
    intro t f fs hf g hg
    refine h.swap ?_ ?_
    · intro x hx hh
      rcases List.mem_cons.1 hx with rfl | h1
      · rw [hg] at hh; cases hh
      · rw [h.top t f fs hf x h1] at hh; cases hh
    · intro f' gs he x hx
      injection he with h1 h2
      exact h.top t f fs hf x (h2 ▸ hx)
  have drop : ∀ t f fs, s.stk t = f :: fs → Once { s with stk := upd s.stk t fs } I := by
    intro t f fs hf
    refine h.swap ?_ ?_
    · intro x hx hh
      rw [h.top t f fs hf x hx] at hh; cases hh
    · intro f' gs he x hx
      exact h.top t f fs hf x (he ▸ List.mem_cons_of_mem _ hx)
  unfold step at hs
  split at hs
  · cases hs
  cases l with
  | submit t =>
    simp only at hs
    (repeat' split at hs) <;> cases hs
    · simpa [invoked] using h
    · simp only [invoked, List.append_nil]
      refine ⟨h.nodup, ?_, ?_, ?_, ?_, h.uniq, h.top⟩
      · rw [List.nodup_append]
        refine ⟨h.qnodup, by simp, ?_⟩
        intro a ha b hb
        have := h.queued a ha
        simp only [List.mem_singleton] at hb
        omega
      · intro c hc
        have := h.old c hc
        refine ⟨by simp only; omega, ?_⟩
        simp only [List.mem_append, List.mem_singleton]
        rintro (h1 | h1)
        · exact this.2 h1
        · omega
      · intro c hc
        simp only [List.mem_append, List.mem_singleton] at hc
        simp only
        rcases hc with h1 | h1
        · have := h.queued c h1; omega
        · omega
      · intro t c b hx
        have := h.held t c b hx
        refine ⟨by simp only; omega, ?_, this.2.2⟩
        simp only [List.mem_append, List.mem_singleton]
        rintro (h1 | h1)
        · exact this.2.1 h1
        · omega
  | close t =>
    simp only at hs
    split at hs <;> cases hs
    simp only [invoked, List.append_nil]
    exact ⟨h.nodup, h.qnodup, h.old, h.queued, h.held, h.uniq, h.top⟩
  | call t =>
    simp only at hs
    split at hs <;> cases hs
    next hm =>
    simp only [invoked, List.append_nil]
    refine h.swap ?_ ?_
    · intro x hx hh
      rcases List.mem_cons.1 hx with rfl | h1
      · cases hh
      · exact h1
    · intro f gs he x hx
      injection he with h1 h2
      exact noHold h hm x (h2 ▸ hx)
  | take t =>
    simp only at hs
    split at hs
    · next hm =>
      split at hs <;> cases hs
      next c q hq =>
      simp only [invoked, List.append_nil]
      exact h.pull hq (noHold h hm)
    · cases hs
  | look t =>
    simp only [look] at hs
    split at hs
    · next fs hf =>
      split at hs
      · next c q hq =>
        cases hs
        simp only [invoked, List.append_nil]
        exact h.pull hq (h.top t _ _ hf)
      · cases hs
        simp only [invoked, List.append_nil]
        exact drop t _ _ hf
    · cases hs
  | start t =>
    simp only [start] at hs
    split at hs
    · next c b fs hf =>
      cases hs
      have hmem : Frame.holds c b ∈ s.stk t := by rw [hf]; exact List.mem_cons_self
      have hc := h.held t c b hmem
      have h0 := pop t _ fs hf (.runs c b) rfl
      simp only [invoked]
      refine ⟨?_, h.qnodup, ?_, h.queued, ?_, h0.uniq, h0.top⟩
      · rw [List.nodup_append]
        refine ⟨h.nodup, by simp, ?_⟩
        intro a ha d hd
        simp only [List.mem_singleton] at hd
        rintro rfl
        exact hc.2.2 (hd ▸ ha)
      · intro d hd
        simp only [List.mem_append, List.mem_singleton] at hd
        rcases hd with h1 | rfl
        · exact h.old d h1
        · exact ⟨hc.1, hc.2.1⟩
      · intro u d b' hx
        have h1 := h0.held u d b' hx
        refine ⟨h1.1, h1.2.1, ?_⟩
        simp only [List.mem_append, List.mem_singleton]
        rintro (h2 | rfl)
        · exact h1.2.2 h2
        · simp only [upd_apply] at hx
          split at hx
          · rcases List.mem_cons.1 hx with h3 | h3
            · cases h3
            · have := h.top t _ fs hf _ h3; cases this
          · next hu => exact hu (h.uniq u t d b' b hx hmem)
    · cases hs
  | finish t =>
    simp only [finish] at hs
    split at hs
    · next hf => cases hs; simp only [invoked, List.append_nil]; exact pop t _ _ hf _ rfl
    · next hf => cases hs; simp only [invoked, List.append_nil]; exact drop t _ _ hf
    · cases hs
  | throw t =>
    simp only [throw] at hs
    split at hs
    · next hf =>
      (repeat' split at hs) <;> cases hs <;> simp only [invoked, List.append_nil]
      · exact drop t _ _ hf
      · exact drop t _ _ hf
      · exact ⟨h.nodup, h.qnodup, h.old, h.queued, h.held, h.uniq, h.top⟩
    · cases hs
  | pred t b =>
    simp only [pred] at hs
    split at hs
    · next hf =>
      split at hs <;> cases hs <;> simp only [invoked, List.append_nil]
      · exact drop t _ _ hf
      · exact pop t _ _ hf _ rfl
    · cases hs
  | predThrow t =>
    simp only at hs
    split at hs
    · next hf => cases hs; simp only [invoked, List.append_nil]; exact drop t _ _ hf
    · cases hs

/-- **C84.** No closure is invoked twice, however many threads help. -/
theorem each_once (us : Bool) (ls : List Label) (s : State) (es : List Event) (h : run (step us) init ls = some (s, es)) : (invoked es).Nodup := by
  have := run_inv_hist (fun s h => Once s (invoked h)) (fun s l s' h es hi hs => by rw [invoked_append]; exact once_step hi hs) (hist := []) Once.init h
  simpa using this.nodup

/-! ## Exceptions of closures -/

theorem step_terminated {us : Bool} {s s' : State} {l : Label} {es : List Event} (hs : step us s l = some (s', es)) :
    s.dead = false ∧ (.terminated ∈ es → us = false ∧ s'.dead = true ∧ ∃ t c, es = [.threw t c, .terminated]) ∧ (us = false → ∀ t c, .threw t c ∈ es → .terminated ∈ es) := by
  unfold step at hs
  split at hs
  · cases hs
  next hd =>
  refine ⟨by simpa using hd, ?_⟩
  cases l <;> simp only [look, start, finish, throw, pred] at hs <;> (repeat' split at hs) <;> cases hs <;> simp_all

/-- **C84 (exceptions).** In `loop_executor` and `basic_thread_pool` a closure that throws ends the program at once: nothing happens afterwards. -/
theorem throwing_closure_ends_the_program (ls : List Label) (s : State) (es pre post : List Event) (t c : Nat) (h : run (step false) init ls = some (s, es)) (he : es = pre ++ .threw t c :: post) :
    post = [.terminated] := by
  have key := run_inv_hist (step := step false)
    (fun s h => ∀ pre t c post, h = pre ++ .threw t c :: post → s.dead = true ∧ post = [.terminated])
    (fun s l s' h es hi hs pre t c post he => by
      obtain ⟨h1, h2, h3⟩ := step_terminated hs
      rcases List.append_eq_append_iff.1 he with ⟨a, rfl, h5⟩ | ⟨a, h4, h5⟩
      · have h6 := h3 rfl t c (by rw [h5]; simp)
        obtain ⟨-, h7, u, d, h8⟩ := h2 h6
        rw [h8] at h5
        cases a with
        | nil => simp only [List.nil_append, List.cons.injEq] at h5; exact ⟨h7, h5.2.symm⟩
        | cons x a =>
          cases a with
          | nil => simp at h5
          | cons y a => simp at h5
      · cases a with
        | nil =>
          have h6 := h3 rfl t c (by rw [← List.nil_append es, ← h5]; simp)
          obtain ⟨-, h7, u, d, h8⟩ := h2 h6
          rw [h8] at h5
          simp only [List.nil_append, List.cons.injEq] at h5
          exact ⟨h7, h5.2⟩
        | cons x a =>
          simp only [List.cons_append, List.cons.injEq] at h5
          obtain ⟨rfl, -⟩ := h5
          have := (hi pre t c a h4).1
          rw [h1] at this; cases this)
    (hist := []) (by simp) h
  exact (key pre t c post (by simpa using he)).2

example : ∃ s es, run (step false) init [.submit 0, .call 1, .look 1, .start 1, .throw 1] = some (s, es) ∧ es = [.submitted 0 0, .called 1, .took 1 0, .started 1 0] ++ .threw 1 0 :: [.terminated] :=
  ⟨_, _, rfl, rfl⟩

/-! ## It never waits -/

/-- The steps of one round. -/
def round (t : Nat) (b : Bool) : List Label := [.look t, .start t, .finish t, .pred t b]

/-- The events of one round in which closure `c` is carried out. -/
def roundEvents (t c : Nat) (b : Bool) : List Event := [.took t c, .started t c, .ended t c] ++ if b then [.predIs t true, .returned t true] else [.predIs t false]

theorem one_round {us : Bool} {s : State} {t c : Nat} {q : List Nat} {fs : List Frame} (b : Bool) (hd : s.dead = false) (hf : s.stk t = .seek :: fs) (hq : s.q = c :: q) :
    ∃ s', run (step us) s (round t b) = some (s', roundEvents t c b) ∧ s'.dead = false ∧ s'.q = q ∧ s'.stk t = if b then fs else .seek :: fs := by
  let k1 := upd s.stk t (.holds c true :: fs)
  let k2 := upd k1 t (.runs c true :: fs)
  let k3 := upd k2 t (.asks :: fs)
  cases b with
  | false =>
    refine ⟨{ s with q := q, stk := upd k3 t (.seek :: fs) }, ?_, hd, rfl, by simp [upd_apply]⟩
    simp [round, roundEvents, run, step, look, start, finish, pred, hd, hf, hq, upd_apply, k1, k2, k3]
  | true =>
    refine ⟨{ s with q := q, stk := upd k3 t fs }, ?_, hd, rfl, by simp [upd_apply]⟩
    simp [round, roundEvents, run, step, look, start, finish, pred, hd, hf, hq, upd_apply, k1, k2, k3]

/-- **C84 (progress).** Wherever the other threads are, a `reschedule_until` whose predicate does not hold and whose closures return carries out, by its own steps alone, everything that is queued, in
order, and then returns false. -/
theorem drains (us : Bool) (q : List Nat) {s : State} {t : Nat} {fs : List Frame} (hd : s.dead = false) (hf : s.stk t = .seek :: fs) (hq : s.q = q) :
    ∃ s', run (step us) s ((q.flatMap fun _ => round t false) ++ [.look t]) = some (s', (q.flatMap fun c => roundEvents t c false) ++ [.returned t false]) ∧ s'.q = [] ∧ s'.stk t = fs := by
  induction q generalizing s with
  | nil =>
    refine ⟨{ s with stk := upd s.stk t fs }, ?_, hq, by simp [upd_apply]⟩
    simp [run, step, look, hd, hf, hq]
  | cons c q ih =>
    obtain ⟨m, h1, h2, h3, h4⟩ := one_round (us := us) false hd hf hq
    obtain ⟨s', h5, h6, h7⟩ := ih h2 (by simpa using h4) h3
    refine ⟨s', ?_, h6, h7⟩
    rw [List.flatMap_cons, List.flatMap_cons, List.append_assoc, List.append_assoc]
    exact run_append h1 h5

/-- **C84 (progress).** If the predicate holds after the closures `pre` and `c`, the next in the queue, and not before, `reschedule_until` carries out exactly these, leaves the rest queued and returns
true. -/
theorem stops (us : Bool) (pre : List Nat) {c : Nat} {rest : List Nat} {s : State} {t : Nat} {fs : List Frame} (hd : s.dead = false) (hf : s.stk t = .seek :: fs) (hq : s.q = pre ++ c :: rest) :
    ∃ s', run (step us) s ((pre.flatMap fun _ => round t false) ++ round t true) = some (s', (pre.flatMap fun c => roundEvents t c false) ++ roundEvents t c true) ∧
      s'.q = rest ∧ s'.stk t = fs := by
  induction pre generalizing s with
  | nil =>
    obtain ⟨m, h1, h2, h3, h4⟩ := one_round (us := us) true hd hf hq
    exact ⟨m, by simpa using h1, h3, by simpa using h4⟩
  | cons d pre ih =>
    obtain ⟨m, h1, h2, h3, h4⟩ := one_round (us := us) false hd hf hq
    obtain ⟨s', h5, h6, h7⟩ := ih h2 (by simpa using h4) h3
    refine ⟨s', ?_, h6, h7⟩
    rw [List.flatMap_cons, List.flatMap_cons, List.append_assoc, List.append_assoc]
    exact run_append h1 h5

example : ∃ s es, run (step false) init [.submit 0, .submit 0, .submit 0, .call 1] = some (s, es) ∧ s.dead = false ∧ s.stk 1 = [.seek] ∧ s.q = [0, 1, 2] := ⟨_, _, rfl, rfl, rfl, rfl⟩

/-! ## Where it differs from its documentation -/

/-- **C84 (disagreement).** The predicate is not asked before the first closure: with an empty queue the call returns false whatever the predicate would say. -/
theorem empty_queue_false (us : Bool) {s : State} {t : Nat} (hd : s.dead = false) (hm : mayCall s t = true) (hq : s.q = []) :
    ∃ s', run (step us) s [.call t, .look t] = some (s', [.called t, .returned t false]) := by
  refine ⟨{ s with stk := upd (upd s.stk t (.seek :: s.stk t)) t (s.stk t) }, ?_⟩
  simp [run, step, look, hd, hm, hq, upd_apply]

example : ∃ s es, run (step false) init [.submit 0, .take 0, .start 0] = some (s, es) ∧ s.dead = false ∧ mayCall s 0 = true ∧ s.q = [] := ⟨_, _, rfl, rfl, rfl, rfl⟩

/-- **C84 (disagreement).** In `user_scheduler` the call returns false after a closure that has thrown, although closures are queued. -/
theorem user_scheduler_false_early : ∃ ls s es pre, run (step true) init ls = some (s, es) ∧ es = pre ++ [.returned 0 false] ∧ taken pre < accepted pre ∧ s.q = [1] ∧ ¬ Accepts (next true) Spec.init es :=
  ⟨[.submit 0, .submit 0, .call 0, .look 0, .start 0, .throw 0], _, _, [_, _, _, _, _, _], rfl, rfl, by decide +kernel, rfl, by decide +kernel⟩

end Verif.Helping
