import Verif.Unwrap.Live
/-!
# Properties of `unwrap`

C55: an unwrapped future comes to exactly what the inner future comes to.
-/

set_option linter.unusedSimpArgs false
set_option linter.unusedVariables false

namespace Verif.Unwrap

/-! ## What is delivered is right -/

theorem step_got {s es loc} (h : Inv s es loc) {l : Label} {s' : State} {e : List Event} (hs : step s l = some (s', e)) :
    (∀ t i o, .got t i o ∈ e → e = [.got t i o] ∧ Resolves es i o) ∧ (∀ t i b, .polled t i b ∈ e → e = [.polled t i b] ∧ (b = true → ∃ o, Resolves es i o)) := by
  cases l with
  | op t o =>
    simp only [step] at hs
    split at hs
    · cases o <;> simp only [stepOp] at hs
      · cases hs; simp
      · cases hs; simp
      · split at hs <;> cases hs; simp
      · split at hs
        · split at hs <;> cases hs <;> simp
        · cases hs
      · split at hs
        · split at hs <;> cases hs <;> simp
        · cases hs
      · rename_i i
        split at hs <;> cases hs
        refine ⟨by simp, fun t' i' b hb => ?_⟩
        simp only [List.mem_singleton, Event.polled.injEq] at hb
        obtain ⟨rfl, rfl, rfl⟩ := hb
        refine ⟨rfl, fun hb => ?_⟩
        obtain ⟨o, ho⟩ := Option.isSome_iff_exists.1 hb
        exact ⟨o, h.sound _ _ ho⟩
    · cases hs
  | finish t o =>
    simp only [step] at hs
    split at hs
    · split at hs <;> cases hs; simp
    · cases hs
  | go t =>
    simp only [step, stepGo] at hs
    split at hs
    · rename_i c l w rest hst
      cases hl : stepLaunch s t c (.launch l w :: rest) with
      | none => rw [hl] at hs; cases hs
      | some s1 => rw [hl] at hs; cases hs; simp
    · split at hs <;> cases hs <;> simp
    · cases hs; simp
    · split at hs <;> cases hs
      rename_i ho
      refine ⟨fun t' i' o' hb => ?_, by simp⟩
      simp only [List.mem_singleton, Event.got.injEq] at hb
      obtain ⟨rfl, rfl, rfl⟩ := hb
      exact ⟨rfl, h.sound _ _ ho⟩
    · cases hs

/-- The step within a run that emits the event after `a`. -/
theorem split_run {es0 : List Event} : ∀ {ls : List Label} {s s' : State} {es : List Event}, Good s es0 → run step s ls = some (s', es) → ∀ {a b : List Event} {x : Event},
    es = a ++ x :: b → (∃ t i o, x = .got t i o) ∨ (∃ t i b, x = .polled t i b) →
    ∃ m m' l, Good m (es0 ++ a) ∧ step m l = some (m', [x]) ∧ ∃ ls1, run step s ls1 = some (m, a) := by
  intro ls
  induction ls generalizing es0 with
  | nil => intro s s' es hg hr a b x he; rw [run_nil] at hr; cases hr; simp at he
  | cons l ls ih =>
    intro s s' es hg hr a b x he hx
    obtain ⟨m, e1, e2, h1, h2, rfl⟩ := run_cons hr
    obtain ⟨⟨loc, hI⟩, hF⟩ := hg
    have hm : Good m (es0 ++ e1) := ⟨hI.step hF h1, hF.step hI h1⟩
    have hs := step_got hI h1
    rw [List.append_eq_append_iff] at he
    rcases he with ⟨c, rfl, hc⟩ | ⟨c, rfl, hc⟩
    · obtain ⟨m1, m2, l', h3, h4, ls1, h5⟩ := ih hm h2 hc hx
      exact ⟨m1, m2, l', by simpa using h3, h4, l :: ls1, run_step h1 h5⟩
    · cases c with
      | nil =>
        obtain ⟨m1, m2, l', h3, h4, ls1, h5⟩ := ih hm h2 (a := []) (b := b) (x := x) (by simpa using hc.symm) hx
        refine ⟨m1, m2, l', by simpa using h3, h4, l :: ls1, ?_⟩
        have := run_step h1 h5
        simpa using this
      | cons y c =>
        simp only [List.cons_append, List.cons.injEq] at hc
        obtain ⟨rfl, hc⟩ := hc
        have : a ++ x :: c = [x] := by
          rcases hx with ⟨t, i, o, rfl⟩ | ⟨t, i, o, rfl⟩
          · exact (hs.1 t i o (by simp)).1
          · exact (hs.2 t i o (by simp)).1
        cases a with
        | nil =>
          cases this
          exact ⟨s, m, l, by simpa using ⟨⟨loc, hI⟩, hF⟩, h1, [], rfl⟩
        | cons a as => simp at this

/-- **C55.** Whatever `get` delivers on any future is what that future stands for at that time: for an unwrapped future, the outcome of the inner future, the exception of the outer one,
or `future_uninitialized`. -/
theorem get_delivers_meaning {ls : List Label} {s : State} {a b : List Event} {t i : Nat} {o : Out} (h : run step init ls = some (s, a ++ .got t i o :: b)) : Resolves a i o := by
  obtain ⟨m, m', l, ⟨⟨loc, hI⟩, -⟩, h1, -⟩ := split_run Good.init h rfl (.inl ⟨t, i, o, rfl⟩)
  simpa using ((step_got hI h1).1 t i o (by simp)).2

/-- **C55.** `is_ready` returns `true` only if the future has come to an outcome. -/
theorem ready_has_meaning {ls : List Label} {s : State} {a b : List Event} {t i : Nat} (h : run step init ls = some (s, a ++ .polled t i true :: b)) : ∃ o, Resolves a i o := by
  obtain ⟨m, m', l, ⟨⟨loc, hI⟩, -⟩, h1, -⟩ := split_run Good.init h rfl (.inr ⟨t, i, true, rfl⟩)
  simpa using ((step_got hI h1).2 t i true (by simp)).2 rfl

/-! ## The meaning is unique -/

theorem Inv.unique {s es loc} (h : Inv s es loc) {i : Nat} {o o' : Out} (h1 : Resolves es i o) (h2 : Resolves es i o') : o = o' := by
  have hd : ∀ {i o w}, Delivered es i o → Unwraps es i w → False := fun hd hu => ((h.del _ _).1 hd).2 _ ((h.unw _ _).1 hu)
  have hu : ∀ {u w w'}, Unwraps es u w → Unwraps es u w' → w = w' := fun h1 h2 => by
    have h1 := (h.unw _ _).1 h1; have h2 := (h.unw _ _).1 h2; rw [h1] at h2; cases h2; rfl
  induction h1 generalizing o' with
  | delivered hd1 =>
    cases h2 with
    | delivered hd2 =>
      have h1 := ((h.del _ _).1 hd1).1; have h2 := ((h.del _ _).1 hd2).1
      rw [h1] at h2; cases h2; rfl
    | failed hu2 => exact (hd hd1 hu2).elim
    | invalid hu2 => exact (hd hd1 hu2).elim
    | inner hu2 => exact (hd hd1 hu2).elim
  | failed hu1 hr1 he1 ih =>
    cases h2 with
    | delivered hd2 => exact (hd hd2 hu1).elim
    | failed hu2 hr2 => cases hu hu1 hu2; exact ih hr2
    | invalid hu2 hr2 => cases hu hu1 hu2; cases ih hr2; cases he1
    | inner hu2 hr2 => cases hu hu1 hu2; cases ih hr2; cases he1
  | invalid hu1 hr1 ih =>
    cases h2 with
    | delivered hd2 => exact (hd hd2 hu1).elim
    | failed hu2 hr2 he2 => cases hu hu1 hu2; cases ih hr2; cases he2
    | invalid hu2 hr2 => rfl
    | inner hu2 hr2 => cases hu hu1 hu2; cases ih hr2
  | inner hu1 hr1 hj1 ih1 ih2 =>
    cases h2 with
    | delivered hd2 => exact (hd hd2 hu1).elim
    | failed hu2 hr2 he2 => cases hu hu1 hu2; cases ih1 hr2; cases he2
    | invalid hu2 hr2 => cases hu hu1 hu2; cases ih1 hr2
    | inner hu2 hr2 hj2 => cases hu hu1 hu2; cases ih1 hr2; exact ih2 hj2

/-- **C55.** No history gives a future two outcomes. -/
theorem meaning_unique {ls : List Label} {s : State} {es : List Event} (h : run step init ls = some (s, es)) {i : Nat} {o o' : Out} (h1 : Resolves es i o)
    (h2 : Resolves es i o') : o = o' := by
  obtain ⟨⟨loc, hI⟩, -⟩ := Good.init.run h
  exact hI.unique (by simpa using h1) (by simpa using h2)

/-! ## Everything is delivered -/

def Frame.isL : Frame → Bool
  | .launch .. => true
  | .hook .. => true
  | _ => false

/-- Launching is on top of the stack: it does not call the user. -/
def NS : List Frame → Prop
  | [] => True
  | f :: l => if f.isL then NS l else ∀ g ∈ l, g.isL = false

theorem NS.of_user : ∀ {l : List Frame}, (∀ g ∈ l, g.isL = false) → NS l
  | [], _ => trivial
  | f :: l, h => by
    simp only [NS]
    rw [if_neg (by simp [h f (by simp)])]
    exact fun g hg => h g (by simp [hg])

theorem NS.tail {f : Frame} {l : List Frame} (h : NS (f :: l)) : NS l := by
  simp only [NS] at h
  split at h
  · exact h
  · exact .of_user h

theorem NS.user {l : List Frame} (h : NS l) (ht : ∀ f r, l = f :: r → f.isL = false) : ∀ g ∈ l, g.isL = false := by
  cases l with
  | nil => simp
  | cons f r =>
    have := ht f r rfl
    simp only [NS, this] at h
    intro g hg
    rcases List.mem_cons.1 hg with rfl | hg
    · exact this
    · exact h g hg

def Nested (s : State) : Prop := ∀ t, NS (s.stk t)

theorem Nested.step {s s' : State} (h : Nested s) {l : Label} {e : List Event} (hs : step s l = some (s', e)) : Nested s' := by
  have hset : ∀ (t : Nat) (l : List Frame), NS l → ∀ t', NS (upd s.stk t l t') := fun t l hl t' => by
    simp only [upd_apply]; split
    · exact hl
    · exact h t'
  have hatt : ∀ (s1 : State) (t c j : Nat) (w : Why) (rest : List Frame), s1.stk = s.stk → NS rest → Nested (s1.attach t c j w rest) := by
    intro s1 t c j w rest h1 h2 t'
    simp only [State.attach, h1]
    split <;> exact hset t _ (by simpa [NS, Frame.isL] using h2) t'
  have hfin : ∀ (s1 : State) (t c : Nat) (o : Out) (w : Why) (rest : List Frame), s1.stk = s.stk → NS rest → Nested (s1.finish t c o w rest) := by
    intro s1 t c o w rest h1 h2 t'
    simp only [State.finish, h1]
    exact hset t _ (by simpa [NS, Frame.isL] using h2) t'
  cases l with
  | op t o =>
    simp only [Unwrap.step] at hs
    split at hs
    · rename_i hf
      have hu : ∀ g ∈ s.stk t, g.isL = false := (h t).user fun f r hr => by
        simp only [State.free, hr] at hf
        cases f <;> first | rfl | simp at hf
      cases o <;> simp only [stepOp] at hs
      · cases hs; exact h
      · cases hs; exact h
      · split at hs <;> cases hs; exact hatt _ _ _ _ _ _ rfl (h t)
      · split at hs
        · split at hs <;> cases hs
          · exact h
          · exact hfin _ _ _ _ _ _ rfl (h t)
        · cases hs
      · split at hs
        · split at hs <;> cases hs
          · refine hset t _ (NS.of_user ?_)
            intro g hg
            simp only [List.mem_cons] at hg
            rcases hg with rfl | rfl | hg
            · rfl
            · rfl
            · exact hu g hg
          · refine hset t _ (NS.of_user ?_)
            intro g hg
            simp only [List.mem_cons] at hg
            rcases hg with rfl | hg
            · rfl
            · exact hu g hg
        · cases hs
      · split at hs <;> cases hs; exact h
    · cases hs
  | finish t o =>
    simp only [Unwrap.step] at hs
    split at hs
    · rename_i i rest hst
      split at hs <;> cases hs
      exact hfin _ _ _ _ _ _ rfl (by have := h t; rw [hst] at this; exact this.tail)
    · cases hs
  | go t =>
    simp only [Unwrap.step, stepGo] at hs
    have ht := h t
    split at hs
    · rename_i c l w rest hst
      rw [hst] at ht
      have hr : NS (.launch l w :: rest) := by simpa [NS, Frame.isL] using ht.tail
      cases hl : stepLaunch s t c (.launch l w :: rest) with
      | none => rw [hl] at hs; cases hs
      | some s1 =>
        rw [hl] at hs
        cases hs
        simp only [stepLaunch] at hl
        split at hl
        · split at hl
          · split at hl <;> cases hl
            · exact hfin _ _ _ _ _ _ rfl hr
            · exact hfin _ _ _ _ _ _ rfl hr
            · exact hfin _ _ _ _ _ _ rfl hr
            · exact hset t _ (by simpa [NS, Frame.isL] using ht.tail)
          · split at hl <;> cases hl; exact hfin _ _ _ _ _ _ rfl hr
        · cases hl
    · rename_i w rest hst
      rw [hst] at ht
      split at hs <;> cases hs <;> exact hset t _ ht.tail
    · rename_i c j rest hst
      rw [hst] at ht
      cases hs; exact hatt _ _ _ _ _ _ rfl ht.tail
    · rename_i i rest hst
      rw [hst] at ht
      split at hs <;> cases hs; exact hset t _ ht.tail
    · cases hs

theorem quiet_items {s : State} (hq : ∀ t, ¬Busy s t) (hB : Nested s) (hF : Fns s) {u t : Nat} (hu : u ∈ items (s.stk t)) : (s.node u).kind = .deferred := by
  have := (hB t).user fun f r hr => by
    cases f with
    | launch l w => exact absurd (.inl ⟨l, w, r, hr⟩) (hq t)
    | hook c j => exact absurd (.inr ⟨c, j, r, hr⟩) (hq t)
    | _ => rfl
  simp only [items, List.mem_flatMap] at hu
  obtain ⟨f, hf, hu⟩ := hu
  cases f with
  | launch l w => simpa [Frame.isL] using this _ hf
  | hook c j => simpa [Frame.isL] using this _ hf
  | wait i => simp [Frame.items] at hu
  | fn i => simp only [Frame.items, List.mem_singleton] at hu; subst hu; exact hF t u hf

theorem resolves_out {s es loc} (h : Inv s es loc) (hq : ∀ t, ¬Busy s t) (hB : Nested s) (hF : Fns s) {i : Nat} {o : Out} (hr : Resolves es i o) : (s.node i).out = some o := by
  have key : ∀ u w, Unwraps es u w → ∀ x, (s.node w).out = some x → (∀ j, x = .fut (some j) → (s.node j).out ≠ none) → (s.node u).out ≠ none := by
    intro u w hu x hx hj hn
    have hk := (h.unw u w).1 hu
    have ha : Active s u := ⟨hn, .inl ⟨w, hk⟩⟩
    have hl := (h.tok u).2 ha
    cases hlu : loc u with
    | nowhere => exact hl hlu
    | thr t => have := quiet_items hq hB hF ((h.locT u t).2 hlu); rw [hk] at this; cases this
    | conts k =>
      obtain ⟨h1, w', h2, h3⟩ := h.cReady u k ((h.locC u k).2 hlu)
      rw [hk] at h2; cases h2
      rcases h3 with ⟨-, rfl⟩ | h3
      · rw [hx] at h1; cases h1
      · obtain ⟨w', h4, h5⟩ := h.inner u k h3
        rw [hk] at h4; cases h4
        rw [hx] at h5; cases h5
        exact hj k rfl h1
  have ex : (s.node i).out ≠ none := by
    induction hr with
    | delivered hd => rw [((h.del _ _).1 hd).1]; simp
    | failed hu hr he ih =>
      obtain ⟨x, hx⟩ := Option.ne_none_iff_exists'.1 ih
      refine key _ _ hu x hx ?_
      rintro j rfl
      cases h.unique hr (h.sound _ _ hx); cases he
    | invalid hu hr ih =>
      obtain ⟨x, hx⟩ := Option.ne_none_iff_exists'.1 ih
      refine key _ _ hu x hx ?_
      rintro j rfl
      cases h.unique hr (h.sound _ _ hx)
    | inner hu hr hj ih1 ih2 =>
      obtain ⟨x, hx⟩ := Option.ne_none_iff_exists'.1 ih1
      refine key _ _ hu x hx ?_
      rintro j rfl
      cases h.unique hr (h.sound _ _ hx); exact ih2
  obtain ⟨x, hx⟩ := Option.ne_none_iff_exists'.1 ex
  rw [hx, h.unique hr (h.sound _ _ hx)]

/-- **C55.** When no call is launching anything, a future that has come to an outcome is ready: a thread that is waiting for it can return at once with that outcome. -/
theorem waiter_returns {ls : List Label} {s : State} {es : List Event} (h : run step init ls = some (s, es)) (hq : ∀ t, ¬Busy s t) {i t : Nat} {o : Out} {rest : List Frame}
    (hr : Resolves es i o) (hw : s.stk t = .wait i :: rest) : ∃ s', step s (.go t) = some (s', [.got t i o]) := by
  obtain ⟨⟨loc, hI⟩, hF⟩ := Good.init.run h
  have hN : Nested s := run_inv Nested (fun _ _ _ _ h1 h2 => h1.step h2) (by intro t; exact trivial) h
  rw [List.nil_append] at hI
  have := resolves_out hI hq hN hF hr
  exact ⟨_, by simp only [step, stepGo, hw, this]; rfl⟩

/-- **C55.** A thread that waits for a future that has come to an outcome gets it, whatever else is in progress: the calls that are launching continuations can run to their end without
any further call, and then the thread returns with the outcome. -/
theorem unwrapped_delivers_partial {ls : List Label} {s : State} {es : List Event} (h : run step init ls = some (s, es)) {i t : Nat} {o : Out} {rest : List Frame}
    (hr : Resolves es i o) (hw : s.stk t = .wait i :: rest) :
    ∃ (ts : List Nat) (s' : State) (e : List Event), run step s (ts.map Label.go) = some (s', e) ∧ .got t i o ∈ e := by
  obtain ⟨N, hN⟩ := Fin.run ⟨0, fun _ _ => rfl⟩ h
  have hg := Good.init.run h
  rw [List.nil_append] at hg
  obtain ⟨ts, s1, e1, h1, h2, h3, h4, -⟩ := settle hg hN
  have hw' : s1.stk t = .wait i :: rest := by
    rw [h4 t ?_, hw]
    rintro (⟨l, w, r, h⟩ | ⟨c, j, r, h⟩) <;> rw [hw] at h <;> cases h
  obtain ⟨s2, h5⟩ := waiter_returns (run_append h h1) h2 (hr.append _) hw'
  refine ⟨ts ++ [t], s2, e1 ++ [.got t i o], ?_, by simp⟩
  rw [List.map_append]
  exact run_append h1 (run_step h5 rfl)

/-- **C55.** The calls that are launching continuations always end: they can all run to their end, and all they do is to return. -/
theorem launching_ends {ls : List Label} {s : State} {es : List Event} (h : run step init ls = some (s, es)) :
    ∃ (ts : List Nat) (s' : State) (e : List Event), run step s (ts.map Label.go) = some (s', e) ∧ (∀ t, ¬Busy s' t) ∧ ∀ x ∈ e, x.isReturn = true := by
  obtain ⟨N, hN⟩ := Fin.run ⟨0, fun _ _ => rfl⟩ h
  have hg := Good.init.run h
  rw [List.nil_append] at hg
  obtain ⟨ts, s1, e1, h1, h2, h3, -⟩ := settle hg hN
  exact ⟨ts, s1, e1, h1, h2, h3⟩

/-- **C55.** When no call is launching anything, `is_ready` tells exactly whether the future has come to an outcome. -/
theorem is_ready_exact {ls : List Label} {s : State} {es : List Event} (h : run step init ls = some (s, es)) (hq : ∀ t, ¬Busy s t) {i t : Nat} {s' : State} {b : Bool}
    (hp : step s (.op t (.poll i)) = some (s', [.polled t i b])) : b = true ↔ ∃ o, Resolves es i o := by
  obtain ⟨⟨loc, hI⟩, hF⟩ := Good.init.run h
  have hN : Nested s := run_inv Nested (fun _ _ _ _ h1 h2 => h1.step h2) (by intro t; exact trivial) h
  rw [List.nil_append] at hI
  constructor
  · intro hb; exact ((step_got hI hp).2 t i b (by simp)).2 hb
  · rintro ⟨o, ho⟩
    have := resolves_out hI hq hN hF ho
    simp only [step, stepOp] at hp
    split at hp
    · split at hp
      · cases hp; simp [this]
      · cases hp
    · cases hp

/-! ## Where the property fails: deferred futures -/

/-- The states in `X` are out of reach of the user for ever, and the unwrapped state `u` waits for one of them, which is deferred. -/
structure Lost (X : Nat → Prop) (u : Nat) (s : State) : Prop where
  lt : ∀ x, X x → x < s.n
  held : ∀ x, X x → s.held x = false
  frames : ∀ t f, f ∈ s.stk t → ∀ x, X x → f ≠ .wait x ∧ f ≠ .fn x ∧ ∀ l, f ≠ .launch l (.unwrap x)
  inside : ∀ i x, X x → (s.node i).out = some (.fut (some x)) → X i
  only : ∀ c x, X x → (s.node c).kind = .unwrap x ∨ (s.node c).inner = some x → c = u
  done : ∀ x, X x → ((s.node x).out ≠ none ∨ (s.node x).kind = .deferred) ∧ ∀ w, (s.node x).kind ≠ .unwrap w
  uX : ¬X u
  ulost : (s.node u).out = none ∧ u < s.n ∧ ∃ w, (s.node u).kind = .unwrap w ∧ X w ∧
    ((s.node u).inner = none ∧ (s.node w).out = none ∨ ∃ j, (s.node u).inner = some j ∧ X j ∧ (s.node j).out = none)

/-- A general step: nothing in `X` changes. -/
theorem Lost.finish {X : Nat → Prop} {u : Nat} {s : State} (h : Lost X u s) {t c : Nat} {o : Out} {w : Why} {rest : List Frame} {g : Nat → Bool}
    (hg : ∀ x, X x → g x = false) (hc : ¬X c) (hu : c ≠ u) (ho : ∀ x, X x → o ≠ .fut (some x)) (hw : ∀ x, X x → w ≠ .unwrap x)
    (hr : ∀ f ∈ rest, f ∈ s.stk t ∨ ∃ f', f' ∈ s.stk t ∧ ∃ l l' w, f = .launch l w ∧ f' = .launch l' w) : Lost X u ({ s with held := g }.finish t c o w rest) := by
  have hne : ∀ x, X x → x ≠ c := fun x hx hxc => hc (hxc ▸ hx)
  constructor
  case lt => exact h.lt
  case held => exact hg
  case frames =>
    intro t' f hf x hx
    simp only [State.finish, upd_apply] at hf
    split at hf
    · rcases List.mem_cons.1 hf with rfl | hf
      · refine ⟨by simp, by simp, fun l hl => ?_⟩
        cases hl; exact hw x hx rfl
      · rcases hr f hf with hf | ⟨f', hf', l, l', w', rfl, rfl⟩
        · exact h.frames t f hf x hx
        · refine ⟨by simp, by simp, fun l hl => ?_⟩
          cases hl
          exact (h.frames t _ hf' x hx).2.2 _ rfl
    · exact h.frames t' f hf x hx
  case inside =>
    intro i x hx hi
    simp only [State.finish, upd_apply] at hi
    split at hi
    · cases hi; exact absurd rfl (ho x hx)
    · exact h.inside i x hx hi
  case only =>
    intro c' x hx hi
    refine h.only c' x hx ?_
    simp only [State.finish, upd_apply] at hi
    split at hi <;> simp_all
  case done =>
    intro x hx
    simp only [State.finish, upd_apply, if_neg (hne x hx)]; exact h.done x hx
  case uX => exact h.uX
  case ulost =>
    obtain ⟨h1, h2, w', h3, h4, h5⟩ := h.ulost
    simp only [State.finish, upd_apply, if_neg (fun hc : u = c => hu hc.symm)]
    refine ⟨h1, h2, w', h3, h4, ?_⟩
    rcases h5 with ⟨h5, h6⟩ | ⟨j, h5, h6, h7⟩
    · exact .inl ⟨h5, by simp only [if_neg (hne w' h4)]; exact h6⟩
    · exact .inr ⟨j, h5, h6, by simp only [if_neg (hne j h6)]; exact h7⟩

theorem Lost.attach {X : Nat → Prop} {u : Nat} {s : State} (h : Lost X u s) {t c j : Nat} {w : Why} {rest : List Frame} (hw : ∀ x, X x → w ≠ .unwrap x)
    (hr : ∀ f ∈ rest, f ∈ s.stk t) : Lost X u (s.attach t c j w rest) := by
  have hsame : ∀ i, ((s.attach t c j w rest).node i).kind = (s.node i).kind ∧ ((s.attach t c j w rest).node i).out = (s.node i).out ∧
      ((s.attach t c j w rest).node i).inner = (s.node i).inner := by
    intro i; simp only [State.attach]; split <;> simp only [upd_apply] <;> split <;> simp_all
  have hn : (s.attach t c j w rest).n = s.n := by simp only [State.attach]; split <;> rfl
  have hh : (s.attach t c j w rest).held = s.held := by simp only [State.attach]; split <;> rfl
  constructor
  case lt => rw [hn]; exact h.lt
  case held => rw [hh]; exact h.held
  case frames =>
    intro t' f hf x hx
    have hf' : (∃ l, f = .launch l w) ∨ f ∈ s.stk t ∨ f ∈ s.stk t' := by
      simp only [State.attach] at hf
      split at hf <;> simp only [upd_apply] at hf <;> split at hf
      · rcases List.mem_cons.1 hf with rfl | hf
        · exact .inl ⟨_, rfl⟩
        · exact .inr (.inl (hr f hf))
      · exact .inr (.inr hf)
      · rcases List.mem_cons.1 hf with rfl | hf
        · exact .inl ⟨_, rfl⟩
        · exact .inr (.inl (hr f hf))
      · exact .inr (.inr hf)
    rcases hf' with ⟨l, rfl⟩ | hf | hf
    · refine ⟨by simp, by simp, fun l' hl => ?_⟩
      cases hl; exact hw x hx rfl
    · exact h.frames t f hf x hx
    · exact h.frames t' f hf x hx
  case inside => intro i x; simp only [hsame]; exact h.inside i x
  case only => intro c x; simp only [hsame]; exact h.only c x
  case done => intro x; simp only [hsame]; exact h.done x
  case uX => exact h.uX
  case ulost => simp only [hsame, hn]; exact h.ulost

theorem Lost.step {X : Nat → Prop} {u : Nat} {s s' : State} (h : Lost X u s) (hF : Fns s) {l : Label} {e : List Event}
    (hs : step s l = some (s', e)) : Lost X u s' ∧ (∀ t o, .got t u o ∉ e) ∧ ∀ t x, X x → .began t x ∉ e ∧ ∀ o, .got t x o ∉ e := by
  have hnX : ∀ x, X x → x ≠ s.n := fun x hx hc => by have := h.lt x hx; omega
  have hheld : ∀ i, s.held i = true → ¬X i := fun i hi hx => by rw [h.held i hx] at hi; cases hi
  have hstore : ∀ (o : Out) (x : Nat), X x → s.store o x = false := by
    intro o x hx
    have := h.held x hx
    cases o with
    | fut j => cases j <;> simp only [State.store, upd_apply]
               · exact this
               · split <;> simp [this]
    | _ => exact this
  have hfits : ∀ (d : Nat) (o : Out), s.fits d o = true → ∀ x, X x → o ≠ .fut (some x) := by
    rintro d o hf x hx rfl
    simp only [State.fits, Bool.and_eq_true] at hf
    exact hheld x hf.1 hx
  have hulost := h.ulost
  have hpop : ∀ {t : Nat} {f : Frame} {rest : List Frame} {g : Nat → Bool}, s.stk t = f :: rest → (∀ x, X x → g x = false) → Lost X u { s with stk := upd s.stk t rest, held := g } := by
    intro t f rest g hst hg
    refine { h with held := hg, frames := ?_, ulost := h.ulost }
    intro t' f' hf' x hx
    simp only [upd_apply] at hf'
    split at hf'
    · exact h.frames t f' (by rw [hst]; simp [hf']) x hx
    · exact h.frames t' f' hf' x hx
  have hnew : ∀ (y : Node) (g : Nat → Bool), y.out = none → y.inner = none → (∀ x, X x → y.kind ≠ .unwrap x) → (∀ x, X x → g x = false) →
      Lost X u { s with n := s.n + 1, node := upd s.node s.n y, held := g } := by
    intro y g h1 h2 h3 hg
    have hun : u ≠ s.n := by have := hulost.2.1; omega
    constructor
    case lt => intro x hx; exact Nat.lt_succ_of_lt (h.lt x hx)
    case held => exact hg
    case frames => exact h.frames
    case inside =>
      intro i x hx hi
      simp only [upd_apply] at hi
      split at hi
      · rw [h1] at hi; cases hi
      · exact h.inside i x hx hi
    case only =>
      intro c x hx hi
      simp only [upd_apply] at hi
      split at hi
      · rcases hi with hi | hi
        · exact absurd hi (h3 x hx)
        · rw [h2] at hi; cases hi
      · exact h.only c x hx hi
    case done => intro x hx; simp only [upd_apply, if_neg (hnX x hx)]; exact h.done x hx
    case uX => exact h.uX
    case ulost =>
      obtain ⟨h1, h2, w', h3, h4, h5⟩ := hulost
      simp only [upd_apply, if_neg hun]
      refine ⟨h1, by omega, w', h3, h4, ?_⟩
      rcases h5 with ⟨h5, h6⟩ | ⟨j, h5, h6, h7⟩
      · exact .inl ⟨h5, by simp only [if_neg (hnX w' h4)]; exact h6⟩
      · exact .inr ⟨j, h5, h6, by simp only [if_neg (hnX j h6)]; exact h7⟩
  cases l with
  | op t o =>
    simp only [Unwrap.step] at hs
    split at hs
    · cases o with
      | promise d =>
        simp only [stepOp, Option.some.injEq, Prod.mk.injEq] at hs
        obtain ⟨rfl, rfl⟩ := hs
        exact ⟨hnew _ _ rfl rfl (by simp) (fun x hx => by simp only [upd_apply, if_neg (hnX x hx)]; exact h.held x hx), by simp, by simp⟩
      | defer d =>
        simp only [stepOp, Option.some.injEq, Prod.mk.injEq] at hs
        obtain ⟨rfl, rfl⟩ := hs
        exact ⟨hnew _ _ rfl rfl (by simp) (fun x hx => by simp only [upd_apply, if_neg (hnX x hx)]; exact h.held x hx), by simp, by simp⟩
      | unwrap w =>
        simp only [stepOp] at hs
        split at hs
        · rename_i hc
          simp only [Option.some.injEq, Prod.mk.injEq] at hs
          obtain ⟨rfl, rfl⟩ := hs
          refine ⟨?_, by simp, by simp⟩
          refine (hnew _ _ rfl rfl ?_ ?_).attach (fun x hx hc' => ?_) (fun f hf => hf)
          · intro x hx hk; cases hk; exact hheld w hc.1 hx
          · intro x hx; simp only [upd_apply]; split
            · rfl
            · exact h.held x hx
          · cases hc'; exact hnX _ hx rfl
        · cases hs
      | set i o =>
        simp only [stepOp] at hs
        split at hs
        · rename_i hc
          split at hs <;> simp only [Option.some.injEq, Prod.mk.injEq] at hs <;> obtain ⟨rfl, rfl⟩ := hs
          · exact ⟨h, by simp, by simp⟩
          · rename_i ho
            refine ⟨h.finish (hstore o) ?_ ?_ (hfits _ o hc.2.2) (by simp) (fun f hf => .inl hf), by simp, by simp⟩
            · intro hx
              rcases (h.done i hx).1 with h' | h'
              · exact h' ho
              · rw [hc.2.1] at h'; cases h'
            · rintro rfl
              obtain ⟨_, _, w, hk, _⟩ := hulost
              rw [hc.2.1] at hk; cases hk
        · cases hs
      | get i =>
        simp only [stepOp] at hs
        split at hs
        · rename_i hh
          have hX := hheld i hh
          have hg : ∀ x, X x → upd s.held i false x = false := fun x hx => by
            simp only [upd_apply]; split
            · rfl
            · exact h.held x hx
          split at hs <;> simp only [Option.some.injEq, Prod.mk.injEq] at hs <;> obtain ⟨rfl, rfl⟩ := hs
          · have hsame : ∀ x, ((upd s.node i { s.node i with deferred := false }) x).kind = (s.node x).kind ∧
                ((upd s.node i { s.node i with deferred := false }) x).out = (s.node x).out ∧
                ((upd s.node i { s.node i with deferred := false }) x).inner = (s.node x).inner := by
              intro x; simp only [upd_apply]; split <;> simp_all
            refine ⟨?_, by simp, fun t' x hx => ⟨?_, by simp⟩⟩
            · constructor
              case lt => exact h.lt
              case held => exact hg
              case frames =>
                intro t' f hf x hx
                simp only [upd_apply] at hf
                split at hf
                · simp only [List.mem_cons] at hf
                  rcases hf with rfl | rfl | hf
                  · exact ⟨by simp, fun hc => by cases hc; exact hX hx, by simp⟩
                  · exact ⟨fun hc => by cases hc; exact hX hx, by simp, by simp⟩
                  · exact h.frames t f hf x hx
                · exact h.frames t' f hf x hx
              case inside => intro i x; simp only [hsame]; exact h.inside i x
              case only => intro c x; simp only [hsame]; exact h.only c x
              case done => intro x; simp only [hsame]; exact h.done x
              case uX => exact h.uX
              case ulost => simp only [hsame]; exact h.ulost
            · simp only [List.mem_cons, reduceCtorEq, Event.began.injEq, List.not_mem_nil, or_false, false_or]
              rintro ⟨-, rfl⟩; exact hX hx
          · refine ⟨?_, by simp, by simp⟩
            refine { h with held := hg, frames := ?_, ulost := h.ulost }
            intro t' f hf x hx
            simp only [upd_apply] at hf
            split at hf
            · simp only [List.mem_cons] at hf
              rcases hf with rfl | hf
              · exact ⟨fun hc => by cases hc; exact hX hx, by simp, by simp⟩
              · exact h.frames t f hf x hx
            · exact h.frames t' f hf x hx
        · cases hs
      | poll i =>
        simp only [stepOp] at hs
        split at hs <;> simp only [Option.some.injEq, Prod.mk.injEq, reduceCtorEq] at hs
        obtain ⟨rfl, rfl⟩ := hs
        exact ⟨h, by simp, by simp⟩
    · cases hs
  | finish t o =>
    simp only [Unwrap.step] at hs
    split at hs
    · rename_i i rest hst
      split at hs
      · rename_i hf
        simp only [Option.some.injEq, Prod.mk.injEq] at hs
        obtain ⟨rfl, rfl⟩ := hs
        refine ⟨h.finish (hstore o) ?_ ?_ (hfits _ o hf) (by simp) (fun f hf => .inl (by simp [hst, hf])), by simp, by simp⟩
        · intro hx; exact (h.frames t (.fn i) (by simp [hst]) i hx).2.1 rfl
        · rintro rfl
          obtain ⟨_, _, w, hk, _⟩ := hulost
          have := hF t i (by simp [hst])
          rw [hk] at this; cases this
      · cases hs
    · cases hs
  | go t =>
    simp only [Unwrap.step, stepGo] at hs
    split at hs
    · rename_i c l w rest hst
      cases hl : stepLaunch s t c (.launch l w :: rest) with
      | none => rw [hl] at hs; cases hs
      | some s1 =>
        rw [hl] at hs
        simp only [Option.map_some, Option.some.injEq, Prod.mk.injEq] at hs
        obtain ⟨rfl, rfl⟩ := hs
        refine ⟨?_, by simp, by simp⟩
        have hr : ∀ f ∈ Frame.launch l w :: rest, f ∈ s.stk t ∨ ∃ f', f' ∈ s.stk t ∧ ∃ l l' w, f = Frame.launch l w ∧ f' = Frame.launch l' w := by
          intro f hf
          rcases List.mem_cons.1 hf with rfl | hf
          · exact .inr ⟨.launch (c :: l) w, by simp [hst], l, c :: l, w, rfl, rfl⟩
          · exact .inl (by simp [hst, hf])
        have hcX : ∀ w', (s.node c).kind = .unwrap w' → ¬X c := fun w' hk hx => (h.done c hx).2 w' hk
        obtain ⟨hu1, hu2, wu, hu3, hu4, hu5⟩ := hulost
        simp only [stepLaunch] at hl
        split at hl
        · rename_i wr hk
          have fin : ∀ o, (∀ x, X x → o ≠ .fut (some x)) → c ≠ u → Lost X u (s.finish t c o .other (.launch l w :: rest)) := fun o ho hc =>
            h.finish (g := s.held) h.held (hcX wr hk) hc ho (by simp) hr
          split at hl
          · rename_i hin
            have hcu : (s.node wr).out ≠ none → c ≠ u := by
              rintro ho rfl
              rw [hk] at hu3; cases hu3
              rcases hu5 with hu5 | ⟨j, hj, -⟩
              · exact ho hu5.2
              · rw [hin] at hj; cases hj
            split at hl <;> try (cases hl; done)
            · rename_i ho; cases hl; exact fin _ (by simp) (hcu (by simp [ho]))
            · rename_i ho; cases hl; exact fin _ (by simp) (hcu (by simp [ho]))
            · rename_i ho; cases hl; exact fin _ (by simp) (hcu (by simp [ho]))
            · rename_i j ho
              cases hl
              have hcu := hcu (by simp [ho])
              have hsame : ∀ x, ((upd s.node c { s.node c with inner := some j }) x).kind = (s.node x).kind ∧
                  ((upd s.node c { s.node c with inner := some j }) x).out = (s.node x).out := by
                intro x; simp only [upd_apply]; split <;> simp_all
              constructor
              case lt => exact h.lt
              case held => exact h.held
              case frames =>
                intro t' f hf x hx
                simp only [upd_apply] at hf
                split at hf
                · simp only [List.mem_cons] at hf
                  rcases hf with rfl | rfl | hf
                  · simp
                  · refine ⟨by simp, by simp, fun l' hl => ?_⟩
                    cases hl
                    exact (h.frames t (.launch (c :: l) (.unwrap x)) (by simp [hst]) x hx).2.2 _ rfl
                  · exact h.frames t f (by simp [hst, hf]) x hx
                · exact h.frames t' f hf x hx
              case inside => intro i x; simp only [hsame]; exact h.inside i x
              case only =>
                intro c' x hx hi
                rw [(hsame c').1] at hi
                by_cases hcc : c' = c
                · subst hcc
                  simp only [upd_apply, if_true] at hi
                  rcases hi with hi | hi
                  · exact h.only c' x hx (.inl hi)
                  · cases hi; exact h.only c' wr (h.inside wr _ hx ho) (.inl hk)
                · simp only [upd_apply, if_neg hcc] at hi; exact h.only c' x hx hi
              case done => intro x; simp only [hsame]; exact h.done x
              case uX => exact h.uX
              case ulost =>
                have hi : ((upd s.node c { s.node c with inner := some j }) u).inner = (s.node u).inner := by simp only [upd_apply, if_neg (fun hc : u = c => hcu hc.symm)]
                simp only [hsame, hi]; exact h.ulost
          · rename_i j hin
            split at hl
            · cases hl
            · rename_i o ho
              cases hl
              have hcu : c ≠ u := by
                rintro rfl
                rcases hu5 with hu5 | ⟨j', hj', hx, hn⟩
                · rw [hin] at hu5; cases hu5.1
                · rw [hin] at hj'; cases hj'; rw [ho] at hn; cases hn
              refine fin _ ?_ hcu
              rintro x hx rfl
              exact hcu (h.only c j (h.inside j x hx ho) (.inr hin))
        · cases hl
    · rename_i w rest hst
      split at hs <;> simp only [Option.some.injEq, Prod.mk.injEq] at hs <;> obtain ⟨rfl, rfl⟩ := hs
      · exact ⟨hpop hst h.held, by simp, by simp⟩
      · rename_i v
        refine ⟨hpop hst (fun x hx => ?_), by simp, by simp⟩
        simp only [upd_apply]
        split
        · rename_i he; subst he; exact absurd rfl ((h.frames t (.launch [] (.unwrap x)) (by simp [hst]) x hx).2.2 [])
        · exact h.held x hx
      · exact ⟨hpop hst h.held, by simp, by simp⟩
    · rename_i c j rest hst
      simp only [Option.some.injEq, Prod.mk.injEq] at hs
      obtain ⟨rfl, rfl⟩ := hs
      exact ⟨h.attach (by simp) (fun f hf => by simp [hst, hf]), by simp, by simp⟩
    · rename_i i rest hst
      split at hs
      · cases hs
      · rename_i o ho
        simp only [Option.some.injEq, Prod.mk.injEq] at hs
        obtain ⟨rfl, rfl⟩ := hs
        have hi : ¬X i := fun hx => (h.frames t (.wait i) (by simp [hst]) i hx).1 rfl
        refine ⟨hpop hst (fun x hx => ?_), ?_, ?_⟩
        · have := h.held x hx
          cases o with
          | fut j =>
            cases j with
            | none => exact this
            | some j =>
              simp only [State.take, upd_apply]
              split
              · rename_i he; subst he; exact absurd (h.inside i x hx ho) hi
              · exact this
          | _ => exact this
        · intro t' o' hm
          simp only [List.mem_singleton, Event.got.injEq] at hm
          obtain ⟨-, rfl, -⟩ := hm
          rw [hulost.1] at ho; cases ho
        · intro t' x hx
          refine ⟨by simp, fun o' hm => ?_⟩
          simp only [List.mem_singleton, Event.got.injEq] at hm
          obtain ⟨-, rfl, -⟩ := hm
          exact hi hx
    · cases hs

theorem Lost.run {X : Nat → Prop} {u : Nat} {es0 : List Event} : ∀ {ls : List Label} {s s' : State} {es : List Event}, Good s es0 → Lost X u s → Verif.run Unwrap.step s ls = some (s', es) →
    (∀ t o, .got t u o ∉ es) ∧ ∀ t x, X x → .began t x ∉ es := by
  intro ls
  induction ls generalizing es0 with
  | nil => intro s s' es hg h hr; rw [run_nil] at hr; cases hr; simp
  | cons l ls ih =>
    intro s s' es hg h hr
    obtain ⟨m, e1, e2, h1, h2, rfl⟩ := run_cons hr
    obtain ⟨⟨loc, hI⟩, hF⟩ := hg
    have h3 := h.step hF h1
    have h4 := ih ⟨hI.step hF h1, hF.step hI h1⟩ h3.1 h2
    refine ⟨fun t o hm => ?_, fun t x hx hm => ?_⟩
    · rcases List.mem_append.1 hm with hm | hm
      · exact h3.2.1 t o hm
      · exact h4.1 t o hm
    · rcases List.mem_append.1 hm with hm | hm
      · exact (h3.2.2 t x hx).1 hm
      · exact h4.2 t x hx hm

/-- **C55 fails for a deferred inner future.** A promise of a future is fulfilled with the future of `async(launch::deferred, f)`. A thread that calls `get` on the unwrapped future waits
for ever: no one runs `f`, whatever happens later. -/
theorem deferred_inner_never_runs :
    ∃ ls s es, run step init ls = some (s, es) ∧ es = [.promised 0 0, .unwraps 0 1 0, .unwrapRet 0 1, .deferred 0 2, .sets 0 0 (.fut (some 2)), .setRet 0 0, .gets 1 1] ∧
      ∀ ls' s' es', run step s ls' = some (s', es') → (∀ t o, .got t 1 o ∉ es') ∧ ∀ t, .began t 2 ∉ es' := by
  obtain ⟨s, hr⟩ : ∃ s, run step init [.op 0 (.promise 1), .op 0 (.unwrap 0), .go 0, .op 0 (.defer 0), .op 0 (.set 0 (.fut (some 2))), .go 0, .go 0, .go 0, .go 0, .op 1 (.get 1)] =
      some (s, [.promised 0 0, .unwraps 0 1 0, .unwrapRet 0 1, .deferred 0 2, .sets 0 0 (.fut (some 2)), .setRet 0 0, .gets 1 1]) := ⟨_, rfl⟩
  have hg := Good.init.run hr
  have hk : s.n = 3 ∧ s.stk 0 = [] ∧ s.stk 1 = [.wait 1] ∧ s.held 0 = false ∧ s.held 2 = false ∧ s.node 0 = { depth := 1, out := some (.fut (some 2)) } ∧
      s.node 1 = { kind := .unwrap 0, inner := some 2 } ∧ s.node 2 = { kind := .deferred, deferred := true, conts := [1] } := by
    cases hr; decide
  obtain ⟨hn, hs0, hs1, hh0, hh2, hd0, hd1, hd2⟩ := hk
  have hst : ∀ t f, f ∈ s.stk t → f = .wait 1 := by
    intro t f hf
    match t with
    | 0 => rw [hs0] at hf; cases hf
    | 1 => rw [hs1] at hf; simpa using hf
    | t + 2 => rw [run_stk (i := t + 2) hr (by simp [Label.tid])] at hf; cases hf
  have hnode : ∀ i, 3 ≤ i → s.node i = {} := by obtain ⟨⟨loc, hI⟩, -⟩ := hg; intro i hi; exact hI.fresh i (by omega)
  have hl : Lost (fun x => x = 0 ∨ x = 2) 1 s := by
    constructor
    case lt => rintro x (rfl | rfl) <;> omega
    case held => rintro x (rfl | rfl) <;> assumption
    case frames => intro t f hf x hx; rw [hst t f hf]; rcases hx with rfl | rfl <;> simp
    case inside =>
      intro i x hx hi
      match i with
      | 0 => exact .inl rfl
      | 1 => rw [hd1] at hi; cases hi
      | 2 => exact .inr rfl
      | i + 3 => rw [hnode (i + 3) (by omega)] at hi; cases hi
    case only =>
      intro i x hx hi
      match i with
      | 0 => rw [hd0] at hi; simp at hi
      | 1 => rfl
      | 2 => rw [hd2] at hi; simp at hi
      | i + 3 => rw [hnode (i + 3) (by omega)] at hi; simp at hi
    case done => rintro x (rfl | rfl) <;> simp [hd0, hd2]
    case uX => decide
    case ulost => exact ⟨by rw [hd1], by omega, 0, by rw [hd1], .inl rfl, .inr ⟨2, by rw [hd1], .inr rfl, by rw [hd2]⟩⟩
  refine ⟨_, s, _, hr, rfl, fun ls' s' es' hr' => ?_⟩
  have := hl.run hg hr'
  exact ⟨this.1, fun t => this.2 t 2 (.inr rfl)⟩

/-- **C55 fails for a deferred outer future.** The future of `async(launch::deferred, f)`, where `f` returns a future, is unwrapped. A thread that calls `get` on the result waits for ever:
no one runs `f`, whatever happens later. -/
theorem deferred_outer_never_runs :
    ∃ ls s es, run step init ls = some (s, es) ∧ es = [.deferred 0 0, .unwraps 0 1 0, .unwrapRet 0 1, .gets 1 1] ∧
      ∀ ls' s' es', run step s ls' = some (s', es') → (∀ t o, .got t 1 o ∉ es') ∧ ∀ t, .began t 0 ∉ es' := by
  obtain ⟨s, hr⟩ : ∃ s, run step init [.op 0 (.defer 1), .op 0 (.unwrap 0), .go 0, .op 1 (.get 1)] =
      some (s, [.deferred 0 0, .unwraps 0 1 0, .unwrapRet 0 1, .gets 1 1]) := ⟨_, rfl⟩
  have hg := Good.init.run hr
  have hk : s.n = 2 ∧ s.stk 0 = [] ∧ s.stk 1 = [.wait 1] ∧ s.held 0 = false ∧ s.node 0 = { kind := .deferred, depth := 1, deferred := true, conts := [1] } ∧
      s.node 1 = { kind := .unwrap 0 } := by
    cases hr; decide
  obtain ⟨hn, hs0, hs1, hh0, hd0, hd1⟩ := hk
  have hst : ∀ t f, f ∈ s.stk t → f = .wait 1 := by
    intro t f hf
    match t with
    | 0 => rw [hs0] at hf; cases hf
    | 1 => rw [hs1] at hf; simpa using hf
    | t + 2 => rw [run_stk (i := t + 2) hr (by simp [Label.tid])] at hf; cases hf
  have hnode : ∀ i, 2 ≤ i → s.node i = {} := by obtain ⟨⟨loc, hI⟩, -⟩ := hg; intro i hi; exact hI.fresh i (by omega)
  have hl : Lost (fun x => x = 0) 1 s := by
    constructor
    case lt => rintro x rfl; omega
    case held => rintro x rfl; assumption
    case frames => intro t f hf x hx; rw [hst t f hf]; subst hx; simp
    case inside =>
      intro i x hx hi
      match i with
      | 0 => rfl
      | 1 => rw [hd1] at hi; cases hi
      | i + 2 => rw [hnode (i + 2) (by omega)] at hi; cases hi
    case only =>
      intro i x hx hi
      match i with
      | 0 => rw [hd0] at hi; simp at hi
      | 1 => rfl
      | i + 2 => rw [hnode (i + 2) (by omega)] at hi; simp at hi
    case done => rintro x rfl; simp [hd0]
    case uX => decide
    case ulost => exact ⟨by rw [hd1], by omega, 0, by rw [hd1], rfl, .inl ⟨by rw [hd1], by rw [hd0]⟩⟩
  refine ⟨_, s, _, hr, rfl, fun ls' s' es' hr' => ?_⟩
  have := hl.run hg hr'
  exact ⟨this.1, fun t => this.2 t 0 rfl⟩

/-! ## The hypotheses can be met -/

/-- Three levels: `future<future<future<int>>>`, unwrapped twice before anything is ready, and the promises fulfilled from the inside out by another thread. -/
example : ∃ s, run step init
    [.op 0 (.promise 2), .op 0 (.unwrap 0), .go 0, .op 0 (.unwrap 1), .go 0, .op 0 (.get 2), .op 1 (.promise 0), .op 1 (.promise 1), .op 1 (.set 3 (.num 7)), .go 1,
     .op 1 (.set 4 (.fut (some 3))), .go 1, .op 1 (.set 0 (.fut (some 4))), .go 1, .go 1, .go 1, .go 1, .go 1, .go 1, .go 0] =
    some (s, [.promised 0 0, .unwraps 0 1 0, .unwrapRet 0 1, .unwraps 0 2 1, .unwrapRet 0 2, .gets 0 2, .promised 1 3, .promised 1 4, .sets 1 3 (.num 7), .setRet 1 3,
      .sets 1 4 (.fut (some 3)), .setRet 1 4, .sets 1 0 (.fut (some 4)), .got 0 2 (.num 7)]) := by
  refine ⟨_, rfl⟩

/-- A thread that waits for an unwrapped future that has come to an outcome while another thread is still launching: `unwrapped_delivers_partial` applies. -/
example : ∃ ls s es, run step init ls = some (s, es) ∧ Resolves es 1 (.exc 5) ∧ s.stk 0 = [.wait 1] ∧ (s.node 1).out = none := by
  refine ⟨[.op 0 (.promise 1), .op 0 (.unwrap 0), .go 0, .op 1 (.promise 0), .op 0 (.get 1), .op 1 (.set 2 (.exc 5)), .go 1, .op 1 (.set 0 (.fut (some 2)))], _,
    [.promised 0 0, .unwraps 0 1 0, .unwrapRet 0 1, .promised 1 2, .gets 0 1, .sets 1 2 (.exc 5), .setRet 1 2, .sets 1 0 (.fut (some 2))], rfl, ?_, rfl, rfl⟩
  exact .inner (w := 0) (j := 2) ⟨0, by decide⟩ (.delivered ⟨1, .inl (by decide)⟩) (.delivered ⟨1, .inl (by decide)⟩)

/-- A future that is not valid inside: the outcome is `future_uninitialized`, and `is_ready` returns `true`. -/
example : ∃ s, run step init [.op 0 (.promise 1), .op 0 (.set 0 (.fut none)), .go 0, .op 0 (.unwrap 0), .go 0, .go 0, .go 0, .op 0 (.poll 1), .op 0 (.get 1), .go 0] =
    some (s, [.promised 0 0, .sets 0 0 (.fut none), .setRet 0 0, .unwraps 0 1 0, .unwrapRet 0 1, .polled 0 1 true, .gets 0 1, .got 0 1 .uninit]) := ⟨_, rfl⟩

/-- A promise fulfilled with what unwraps its own future comes to nothing. -/
theorem own_future_unresolved {o : Out} : ¬Resolves [.promised 0 0, .unwraps 0 1 0, .unwrapRet 0 1, .sets 0 0 (.fut (some 1)), .setRet 0 0] 1 o := by
  suffices h : ∀ i, Resolves [.promised 0 0, .unwraps 0 1 0, .unwrapRet 0 1, .sets 0 0 (.fut (some 1)), .setRet 0 0] i o → i = 1 → False from fun h' => h 1 h' rfl
  intro i h hi
  have h0 : ∀ {i o}, Resolves [.promised 0 0, .unwraps 0 1 0, .unwrapRet 0 1, .sets 0 0 (.fut (some 1)), .setRet 0 0] i o → i = 0 → o = .fut (some 1) := by
    intro i o h hi
    subst hi
    cases h with
    | delivered h => obtain ⟨t, h⟩ := h; simp at h; exact h.2
    | failed h => obtain ⟨t, h⟩ := h; simp at h
    | invalid h => obtain ⟨t, h⟩ := h; simp at h
    | inner h => obtain ⟨t, h⟩ := h; simp at h
  induction h with
  | delivered h => obtain ⟨t, h⟩ := h; subst hi; simp at h
  | failed h hr he =>
    obtain ⟨t, h⟩ := h; subst hi; simp at h
    have := h0 hr h.2; rw [this] at he; cases he
  | invalid h hr =>
    obtain ⟨t, h⟩ := h; subst hi; simp at h
    have := h0 hr h.2; cases this
  | inner h hr hj ih1 ih2 =>
    obtain ⟨t, h⟩ := h; subst hi; simp at h
    have := h0 hr h.2; cases this; exact ih2 rfl

example : ∃ s, run step init [.op 0 (.promise 1), .op 0 (.unwrap 0), .go 0, .op 0 (.set 0 (.fut (some 1))), .go 0, .go 0, .go 0, .go 0] =
    some (s, [.promised 0 0, .unwraps 0 1 0, .unwrapRet 0 1, .sets 0 0 (.fut (some 1)), .setRet 0 0]) := ⟨_, rfl⟩

end Verif.Unwrap
