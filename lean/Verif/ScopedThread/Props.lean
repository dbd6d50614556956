import Verif.ScopedThread.Spec
/-!
# Properties of `scoped_thread` (C50)
-/

set_option linter.unusedSimpArgs false

namespace Verif.ScopedThread

@[grind =] theorem upd_apply {α : Type} (f : Nat → α) (i : Nat) (x : α) (j : Nat) : upd f i x j = if j = i then x else f j := rfl

/-- What the action does to an object. -/
theorem act_cases (fn : Fn) (s : State) (o : Nat) (j : J) :
    (s.slot o = none ∧ act fn s o j = (s, [], false)) ∨
    (∃ t, s.slot o = some t ∧ act fn s o j = ({ s with slot := upd s.slot o none }, acts fn o t, false)) ∨
    (∃ t, s.slot o = some t ∧ j ≠ .ok ∧ (act fn s o j = (s, [.joinThrew o t], true) ∨ act fn s o j = (s, [.interrupted o t, .joinThrew o t], true))) := by
  simp only [act]
  cases h : s.slot o with
  | none => exact .inl ⟨rfl, rfl⟩
  | some t =>
    refine .inr ?_
    cases fn <;> cases j <;> simp [doDetach, doJoin, acts]

structure Inv (s : State) : Prop where
  alive : ∀ o t, s.slot o = some t → s.alive o = true
  lt : ∀ o t, s.slot o = some t → t < s.n
  inj : ∀ o o' t, s.slot o = some t → s.slot o' = some t → o = o'

/-- The effect of one call, in one of a few shapes. -/
inductive Eff (fn : Fn) (s s' : State) (l : Label) (es : List Event) : Prop where
  | make (o : Nat) (ha : s.alive o = false) (e : s' = { s with alive := upd s.alive o true, slot := upd s.slot o (some s.n), n := s.n + 1 }) (ee : es = [.made o s.n])
  | empty (o : Nat) (ha : s.alive o = false) (e : s' = { s with alive := upd s.alive o true, slot := upd s.slot o none }) (ee : es = [.madeEmpty o])
  | move (d src : Nat) (ha : s.alive d = false) (hb : s.alive src = true) (e : s' = { s with alive := upd s.alive d true, slot := upd (upd s.slot d (s.slot src)) src none })
      (ee : es = [.moved d src])
  | swap (a b : Nat) (ha : s.alive a = true) (hb : s.alive b = true) (e : s' = { s with slot := upd (upd s.slot a (s.slot b)) b (s.slot a) }) (ee : es = [.swapped a b])
  | assign0 (d src : Nat) (ha : s.alive d = true) (hb : s.alive src = true) (hd : s.slot d = none) (e : s' = { s with slot := upd (upd s.slot d (s.slot src)) src none })
      (ee : es = [.assigned d src])
  | assign1 (d src t : Nat) (ha : s.alive d = true) (hb : s.alive src = true) (hd : s.slot d = some t)
      (e : s' = { s with slot := upd (upd (upd s.slot d none) d (upd s.slot d none src)) src none }) (ee : es = acts fn d t ++ [.assigned d src])
  | destroy0 (o : Nat) (ha : s.alive o = true) (hd : s.slot o = none) (e : s' = { s with alive := upd s.alive o false }) (ee : es = [.destroyed o])
  | destroy1 (o t : Nat) (ha : s.alive o = true) (hd : s.slot o = some t) (e : s' = { s with slot := upd s.slot o none, alive := upd s.alive o false })
      (ee : es = acts fn o t ++ [.destroyed o])
  | dead (o t : Nat) (hl : l.plain = false) (hd : s.slot o = some t) (e : s' = { s with dead := true }) (ee : es = [.joinThrew o t, .terminated o] ∨ es = [.interrupted o t, .joinThrew o t, .terminated o])
  | threw (o t : Nat) (hl : l.plain = false) (hd : s.slot o = some t) (e : s' = s) (ee : es = [.joinThrew o t] ∨ es = [.interrupted o t, .joinThrew o t] ∨ es = [.interrupted o t])
  | released (o t : Nat) (hl : l.plain = false) (hd : s.slot o = some t) (e : s' = { s with slot := upd s.slot o none }) (ee : es = [.joined o t] ∨ es = [.detached o t])
  | nothing (o : Nat) (hl : l.plain = false) (hd : s.slot o = none) (e : s' = s) (ee : es = [] ∨ es = [.notJoinable o])

theorem step_eff {fn : Fn} {s s' : State} {l : Label} {es : List Event} (hs : step fn s l = some (s', es)) : Eff fn s s' l es := by
  simp only [step] at hs
  split at hs
  · cases hs
  · cases l with
    | make o =>
      simp only at hs
      split at hs <;> simp only [Option.some.injEq, Prod.mk.injEq, reduceCtorEq] at hs
      exact .make o (by simp_all) hs.1.symm hs.2.symm
    | makeEmpty o =>
      simp only at hs
      split at hs <;> simp only [Option.some.injEq, Prod.mk.injEq, reduceCtorEq] at hs
      exact .empty o (by simp_all) hs.1.symm hs.2.symm
    | moveCtor d src =>
      simp only at hs
      split at hs <;> simp only [Option.some.injEq, Prod.mk.injEq, reduceCtorEq] at hs
      exact .move d src (by simp_all) (by simp_all) hs.1.symm hs.2.symm
    | swap d src =>
      simp only at hs
      split at hs <;> simp only [Option.some.injEq, Prod.mk.injEq, reduceCtorEq] at hs
      exact .swap d src (by simp_all) (by simp_all) hs.1.symm hs.2.symm
    | assign d src j =>
      simp only at hs
      split at hs
      · cases hs
      · rename_i ha
        simp only [Bool.not_eq_true', Bool.and_eq_false_iff, not_or, Bool.not_eq_false] at ha
        rcases act_cases fn s d j with ⟨h1, h2⟩ | ⟨t, h1, h2⟩ | ⟨t, h1, hj, h2 | h2⟩ <;> rw [h2] at hs <;>
          simp only [Option.some.injEq, Prod.mk.injEq, List.nil_append] at hs
        · exact .assign0 d src ha.1 ha.2 h1 hs.1.symm hs.2.symm
        · exact .assign1 d src t ha.1 ha.2 h1 hs.1.symm hs.2.symm
        · exact .threw d t (by simpa [Label.plain] using hj) h1 hs.1.symm (.inl hs.2.symm)
        · exact .threw d t (by simpa [Label.plain] using hj) h1 hs.1.symm (.inr (.inl hs.2.symm))
    | destroy o j =>
      simp only at hs
      split at hs
      · cases hs
      · rename_i ha
        simp only [Bool.or_eq_true, Bool.not_eq_true', not_or, Bool.not_eq_false] at ha
        rcases act_cases fn s o j with ⟨h1, h2⟩ | ⟨t, h1, h2⟩ | ⟨t, h1, hj, h2 | h2⟩ <;> rw [h2] at hs <;>
          simp only [Option.some.injEq, Prod.mk.injEq, List.nil_append] at hs
        · exact .destroy0 o ha.1 h1 hs.1.symm hs.2.symm
        · exact .destroy1 o t ha.1 h1 hs.1.symm hs.2.symm
        · exact .dead o t (by simpa [Label.plain] using hj) h1 hs.1.symm (.inl hs.2.symm)
        · exact .dead o t (by simpa [Label.plain] using hj) h1 hs.1.symm (.inr hs.2.symm)
    | join o j =>
      simp only at hs
      split at hs
      · cases hs
      · split at hs
        · rename_i h; simp only [Option.some.injEq, Prod.mk.injEq] at hs; exact .nothing o rfl h hs.1.symm (.inr hs.2.symm)
        · rename_i t h
          cases j <;> simp only [doJoin, Option.some.injEq, Prod.mk.injEq] at hs
          · exact .released o t rfl h hs.1.symm (.inl hs.2.symm)
          · exact .threw o t rfl h hs.1.symm (.inl hs.2.symm)
          · exact .threw o t rfl h hs.1.symm (.inl hs.2.symm)
    | detach o =>
      simp only at hs
      split at hs
      · cases hs
      · split at hs
        · rename_i h; simp only [Option.some.injEq, Prod.mk.injEq] at hs; exact .nothing o rfl h hs.1.symm (.inl hs.2.symm)
        · rename_i t h
          simp only [doDetach, Option.some.injEq, Prod.mk.injEq] at hs
          exact .released o t rfl h hs.1.symm (.inr hs.2.symm)
    | interrupt o =>
      simp only at hs
      split at hs
      · cases hs
      · split at hs
        · rename_i h; simp only [Option.some.injEq, Prod.mk.injEq] at hs; exact .nothing o rfl h hs.1.symm (.inl hs.2.symm)
        · rename_i t h
          simp only [Option.some.injEq, Prod.mk.injEq] at hs
          exact .threw o t rfl h hs.1.symm (.inr (.inr hs.2.symm))

theorem step_inv {fn : Fn} {s s' : State} {l : Label} {es : List Event} (h : Inv s) (hs : step fn s l = some (s', es)) : Inv s' := by
  obtain ⟨h1, h2, h3⟩ := h
  cases step_eff hs <;> subst s' <;> constructor <;> (try simp only) <;> grind

def R (s : State) (σ : Own) : Prop := Inv s ∧ σ.held = s.slot ∧ σ.n = s.n

theorem step_follows {fn : Fn} {s s' : State} {l : Label} {es : List Event} {σ : Own} (hR : R s σ) (hs : step fn s l = some (s', es)) :
    Follows next (R s') σ es := by
  have hi := step_inv hR.1 hs
  obtain ⟨⟨h1, h2, h3⟩, h4, h5⟩ := hR
  obtain ⟨held, n⟩ := σ
  simp only at h4 h5
  subst h4 h5
  cases step_eff hs with
  | make o ha e ee => subst e ee; simp only [Follows, next, if_true]; exact ⟨hi, rfl, rfl⟩
  | empty o ha e ee => subst e ee; simp only [Follows, next]; exact ⟨hi, rfl, rfl⟩
  | move d src ha hb e ee =>
    subst e ee
    have : s.slot d = none := by cases h : s.slot d with | none => rfl | some t => rw [h1 d t h] at ha; cases ha
    simp only [Follows, next, this, if_true]; exact ⟨hi, rfl, rfl⟩
  | swap a b ha hb e ee => subst e ee; simp only [Follows, next]; exact ⟨hi, rfl, rfl⟩
  | assign0 d src ha hb hd e ee => subst e ee; simp only [Follows, next, hd, if_true]; exact ⟨hi, rfl, rfl⟩
  | assign1 d src t ha hb hd e ee =>
    subst e ee
    cases fn <;> simp [acts, Follows, next, hd, upd_apply] <;> exact ⟨hi, by simp [upd_apply], rfl⟩
  | destroy0 o ha hd e ee => subst e ee; simp only [Follows, next, hd, if_true]; exact ⟨hi, rfl, rfl⟩
  | destroy1 o t ha hd e ee =>
    subst e ee
    cases fn <;> simp [acts, Follows, next, hd, upd_apply] <;> exact ⟨hi, rfl, rfl⟩
  | dead o t hl hd e ee =>
    subst e
    rcases ee with rfl | rfl <;> simp [Follows, next, hd] <;> exact ⟨hi, rfl, rfl⟩
  | threw o t hl hd e ee =>
    subst e
    rcases ee with rfl | rfl | rfl <;> simp [Follows, next, hd] <;> exact ⟨hi, rfl, rfl⟩
  | released o t hl hd e ee =>
    subst e
    rcases ee with rfl | rfl <;> simp [Follows, next, hd] <;> exact ⟨hi, rfl, rfl⟩
  | nothing o hl hd e ee =>
    subst e
    rcases ee with rfl | rfl <;> simp [Follows, next, hd] <;> exact ⟨hi, rfl, rfl⟩

theorem Inv_init : Inv {} := ⟨by simp, by simp, by simp⟩

/-- **C50, never loses a thread.** In every history, no object is destroyed or assigned to while it is responsible for a thread, and only the object responsible for a
thread touches it. -/
theorem history_conforms (fn : Fn) {ls : List Label} {s : State} {es : List Event} (h : run (step fn) {} ls = some (s, es)) : Accepts next {} es :=
  simulation (s := ({} : State)) R (fun _ _ _ _ _ hR hs => step_follows hR hs) ⟨Inv_init, rfl, rfl⟩ h

/-- Each thread is held by an object, and then `f` of it is `z`, or it has been released, and then `f` of it satisfies `once`. -/
structure Cnt {α : Type} (z : α) (once : Nat → α → Prop) (s : State) (f : Nat → α) : Prop where
  inv : Inv s
  held : ∀ o t, s.slot o = some t → f t = z
  rest : ∀ t, t < s.n → (∀ o, s.slot o ≠ some t) → once t (f t)
  fresh : ∀ t, s.n ≤ t → f t = z

/-- No thread changes hands. -/
theorem Cnt.same {α : Type} {z : α} {once : Nat → α → Prop} {s s' : State} {f f' : Nat → α} (h : Cnt z once s f) (hi : Inv s') (hn : s'.n = s.n) (hg : ∀ u, f' u = f u)
    (h1 : ∀ o t, s'.slot o = some t → ∃ o', s.slot o' = some t) (h2 : ∀ o t, s.slot o = some t → ∃ o', s'.slot o' = some t) : Cnt z once s' f' := by
  refine ⟨hi, ?_, ?_, ?_⟩ <;> simp only [hg, hn]
  · intro o t e; obtain ⟨o', e'⟩ := h1 o t e; exact h.held o' t e'
  · intro t e e'; exact h.rest t e (fun o e2 => by obtain ⟨o', e3⟩ := h2 o t e2; exact e' o' e3)
  · exact h.fresh

/-- One thread is released. -/
theorem Cnt.release {α : Type} {z : α} {once : Nat → α → Prop} {s s' : State} {f f' : Nat → α} {o t : Nat} (h : Cnt z once s f) (hi : Inv s') (hn : s'.n = s.n)
    (ho : s.slot o = some t) (hg : ∀ u, u ≠ t → f' u = f u) (ht' : f t = z → once t (f' t))
    (h0 : ∀ o', s'.slot o' ≠ some t)
    (h1 : ∀ o t, s'.slot o = some t → ∃ o', s.slot o' = some t) (h2 : ∀ o' u, s.slot o' = some u → u ≠ t → ∃ o', s'.slot o' = some u) : Cnt z once s' f' := by
  have ht := h.inv.lt o t ho
  refine ⟨hi, ?_, ?_, ?_⟩ <;> (try simp only [hn])
  · intro o' u e
    have : u ≠ t := by rintro rfl; exact h0 o' e
    obtain ⟨o'', e'⟩ := h1 o' u e
    rw [hg u this, h.held o'' u e']
  · intro u e e'
    by_cases x : u = t
    · subst x; exact ht' (h.held o u ho)
    · rw [hg u x]
      exact h.rest u e (fun o e2 => by obtain ⟨o', e3⟩ := h2 o u e2 x; exact e' o' e3)
  · intro u e; rw [hg u (by omega)]; exact h.fresh u e

theorem acts_any (fn : Fn) (o t u : Nat) (x : Event) (hx : x.releases u = false) : ((acts fn o t ++ [x]).any (·.releases u)) = decide (t = u) := by
  have e : ∀ a, (a == u) = decide (a = u) := fun _ => rfl
  rw [List.any_append]
  simp only [List.any_cons, List.any_nil, hx, Bool.or_false]
  cases fn <;> simp [acts, Event.releases] <;> exact e t

theorem step_cnt {α : Type} {z : α} {once : Nat → α → Prop} {fn : Fn} {s s' : State} {l : Label} {f f' : Nat → α} {es : List Event} (h : Cnt z once s f)
    (hs : step fn s l = some (s', es)) (hq : ∀ u, es.any (·.releases u) = false → f' u = f u) (hB : ∀ u, es.any (·.releases u) = true → f u = z → once u (f' u)) :
    Cnt z once s' f' := by
  have hi := step_inv h.inv hs
  have i1 := h.inv.alive
  have hrel : ∀ t, (∀ u, es.any (·.releases u) = decide (t = u)) → (∀ u, u ≠ t → f' u = f u) ∧ (f t = z → once t (f' t)) := by
    intro t ht
    exact ⟨fun u hu => hq u (by rw [ht]; simpa using fun e => hu e.symm), hB t (by rw [ht]; simp)⟩
  cases step_eff hs with
  | make o ha e ee =>
    clear hs
    subst e ee
    have hn : ∀ t, s.slot o ≠ some t := fun t h => by rw [i1 o t h] at ha; cases ha
    obtain ⟨⟨j1, j2, j3⟩, h1, h2, h3⟩ := h
    have he : ∀ u, f' u = f u := fun u => hq u rfl
    refine ⟨hi, ?_, ?_, ?_⟩ <;> simp only [he, upd_apply]
    · intro o' t; split
      · intro e; cases e; exact h3 _ (Nat.le_refl _)
      · exact h1 o' t
    · intro t e e'
      have hts : t ≠ s.n := by rintro rfl; exact e' o (by simp)
      refine h2 t (by omega) (fun o' e2 => e' o' ?_)
      rw [if_neg (by rintro rfl; exact hn t e2)]; exact e2
    · intro t e; exact h3 t (by omega)
  | empty o ha e ee =>
    subst e ee
    have hn : ∀ t, s.slot o ≠ some t := fun t h => by rw [i1 o t h] at ha; cases ha
    refine h.same hi rfl (fun u => hq u rfl) ?_ ?_ <;> intro o' t e <;> refine ⟨o', ?_⟩ <;> grind
  | move d src ha hb e ee =>
    subst e ee
    have hn : ∀ t, s.slot d ≠ some t := fun t h => by rw [i1 d t h] at ha; cases ha
    refine h.same hi rfl (fun u => hq u rfl) ?_ ?_ <;> intro o' t e
    · simp only [upd_apply] at e
      split at e
      · cases e
      · split at e
        · exact ⟨src, e⟩
        · exact ⟨o', e⟩
    · by_cases hx : o' = src
      · subst hx; refine ⟨d, ?_⟩
        have : d ≠ o' := by rintro rfl; rw [ha] at hb; cases hb
        grind
      · refine ⟨o', ?_⟩; grind
  | swap a b ha hb e ee =>
    subst e ee
    refine h.same hi rfl (fun u => hq u rfl) ?_ ?_ <;> intro o' t e
    · simp only [upd_apply] at e
      split at e
      · exact ⟨a, e⟩
      · split at e
        · exact ⟨b, e⟩
        · exact ⟨o', e⟩
    · refine ⟨if o' = a then b else if o' = b then a else o', ?_⟩; grind
  | assign0 d src ha hb hd e ee =>
    subst e ee
    refine h.same hi rfl (fun u => hq u rfl) ?_ ?_ <;> intro o' t e
    · simp only [upd_apply] at e
      split at e
      · cases e
      · split at e
        · exact ⟨src, e⟩
        · exact ⟨o', e⟩
    · refine ⟨if o' = src then d else o', ?_⟩; grind
  | assign1 d src t ha hb hd e ee =>
    have hg := hrel t (by intro u; rw [ee, acts_any _ _ _ _ _ rfl])
    have i3 := h.inv.inj
    subst e
    refine h.release hi rfl hd hg.1 hg.2 ?_ ?_ ?_
    · intro o' e; grind
    · intro o' u e
      by_cases hx : o' = d
      · exact ⟨src, by grind⟩
      · exact ⟨o', by grind⟩
    · intro o' u e hne
      refine ⟨if o' = src then d else o', ?_⟩; grind
  | destroy0 o ha hd e ee =>
    subst e ee
    exact h.same hi rfl (fun u => hq u rfl) (fun o' t e => ⟨o', e⟩) (fun o' t e => ⟨o', e⟩)
  | destroy1 d t ha hd e ee =>
    have hg := hrel t (by intro u; rw [ee, acts_any _ _ _ _ _ rfl])
    have i3 := h.inv.inj
    subst e
    refine h.release hi rfl hd hg.1 hg.2 ?_ ?_ ?_
    · intro o' e; grind
    · intro o' u e; refine ⟨o', ?_⟩; grind
    · intro o' u e hne; refine ⟨o', ?_⟩; grind
  | dead o t hl hd e ee =>
    subst e
    have he : ∀ u, f' u = f u := by rcases ee with rfl | rfl <;> intro u <;> exact hq u rfl
    exact h.same hi rfl he (fun o' t e => ⟨o', e⟩) (fun o' t e => ⟨o', e⟩)
  | threw o t hl hd e ee =>
    subst e
    have he : ∀ u, f' u = f u := by rcases ee with rfl | rfl | rfl <;> intro u <;> exact hq u rfl
    exact h.same hi rfl he (fun o' t e => ⟨o', e⟩) (fun o' t e => ⟨o', e⟩)
  | released d t hl hd e ee =>
    have hg := hrel t (by rcases ee with rfl | rfl <;> intro u <;> simp only [List.any_cons, List.any_nil, Event.releases, Bool.or_false] <;> rfl)
    have i3 := h.inv.inj
    subst e
    refine h.release hi rfl hd hg.1 hg.2 ?_ ?_ ?_
    · intro o' e; grind
    · intro o' u e; refine ⟨o', ?_⟩; grind
    · intro o' u e hne; refine ⟨o', ?_⟩; grind
  | nothing o hl hd e ee =>
    subst e
    have he : ∀ u, f' u = f u := by rcases ee with rfl | rfl <;> intro u <;> exact hq u rfl
    exact h.same hi rfl he (fun o' t e => ⟨o', e⟩) (fun o' t e => ⟨o', e⟩)

/-- One call releases at most one thread, once. -/
theorem step_releases {fn : Fn} {s s' : State} {l : Label} {es : List Event} (hs : step fn s l = some (s', es)) (u : Nat) :
    es.countP (·.releases u) = if es.any (·.releases u) then 1 else 0 := by
  cases step_eff hs with
  | make => subst es; rfl
  | empty => subst es; rfl
  | move => subst es; rfl
  | swap => subst es; rfl
  | assign0 => subst es; rfl
  | assign1 => subst es; cases fn <;> simp [acts, Event.releases, List.countP_cons]
  | destroy0 => subst es; rfl
  | destroy1 => subst es; cases fn <;> simp [acts, Event.releases, List.countP_cons]
  | dead o t hl hd e ee => rcases ee with rfl | rfl <;> rfl
  | threw o t hl hd e ee => rcases ee with rfl | rfl | rfl <;> rfl
  | released o t hl hd e ee => rcases ee with rfl | rfl <;> simp [Event.releases, List.countP_cons]
  | nothing o hl hd e ee => rcases ee with rfl | rfl <;> rfl

theorem cnt_run {fn : Fn} {ls : List Label} {s : State} {es : List Event} (h : run (step fn) {} ls = some (s, es)) :
    Cnt 0 (fun _ k => k = 1) s (fun u => es.countP (·.releases u)) := by
  have := run_inv_hist (step := step fn) (fun s hist => Cnt 0 (fun _ k => k = 1) s (fun u => hist.countP (·.releases u)))
    (fun _ _ _ _ _ hc hs => step_cnt hc hs (by intro u hu; simp only [List.countP_append, step_releases hs, hu]; rfl)
      (by intro u hu h0; simp only [List.countP_append, step_releases hs, hu, h0]; rfl)) (s := ({} : State)) (hist := []) ⟨Inv_init, by simp, by simp, by simp⟩ h
  simpa using this

/-- **C50, no thread twice.** No thread is joined or detached more than once. -/
theorem released_at_most_once (fn : Fn) {ls : List Label} {s : State} {es : List Event} (h : run (step fn) {} ls = some (s, es)) (t : Nat) :
    es.countP (·.releases t) ≤ 1 := by
  have hc := cnt_run h
  by_cases ht : t < s.n
  · by_cases hh : ∃ o, s.slot o = some t
    · obtain ⟨o, ho⟩ := hh; have := hc.held o t ho; omega
    · have := hc.rest t ht (fun o ho => hh ⟨o, ho⟩); omega
  · have := hc.fresh t (by omega); omega

/-- **C50, no thread lost.** Every thread given to a `scoped_thread` has been joined or detached exactly once, or some object that exists still holds it; then it has not been released. -/
theorem never_lost (fn : Fn) {ls : List Label} {s : State} {es : List Event} (h : run (step fn) {} ls = some (s, es)) {o t : Nat} (hm : .made o t ∈ es) :
    (es.countP (·.releases t) = 1 ∧ ∀ o', s.slot o' ≠ some t) ∨ ∃ o', s.alive o' = true ∧ s.slot o' = some t ∧ es.countP (·.releases t) = 0 := by
  have hc := cnt_run h
  have ht : t < s.n := by
    have := run_inv_hist (step := step fn) (fun s hist => ∀ o t, .made o t ∈ hist → t < s.n) ?_ (s := ({} : State)) (hist := []) (by simp) h
    · exact this o t (by simpa using hm)
    · intro s l s' hist es hh hs o t hm
      rcases List.mem_append.1 hm with hm | hm
      · have := hh o t hm
        cases step_eff hs <;> subst s' <;> (try simp only) <;> omega
      · cases step_eff hs <;> subst s' <;> (try subst es) <;> (try (rename_i ee; rcases ee with rfl | rfl | rfl)) <;> (try (rename_i ee; rcases ee with rfl | rfl)) <;>
          (try cases fn) <;> simp [acts] at hm ⊢ <;> omega
  by_cases hh : ∃ o, s.slot o = some t
  · obtain ⟨o', ho⟩ := hh; exact .inr ⟨o', hc.inv.alive o' t ho, ho, hc.held o' t ho⟩
  · exact .inl ⟨hc.rest t ht (fun o ho => hh ⟨o, ho⟩), fun o ho => hh ⟨o, ho⟩⟩

/-- What one call does to a thread when the client leaves it to the objects. -/
theorem plain_about {fn : Fn} {s s' : State} {l : Label} {es : List Event} (hl : l.plain = true) (hs : step fn s l = some (s', es)) (u : Nat) :
    (es.any (·.releases u) = false → es.filter (·.about u) = []) ∧ (es.any (·.releases u) = true → ∃ o, es.filter (·.about u) = acts fn o u) := by
  have key : ∀ o t x, (∀ v, Event.about v x = false) → (∀ v, Event.releases v x = false) → es = acts fn o t ++ [x] →
      (es.any (·.releases u) = false → es.filter (·.about u) = []) ∧ (es.any (·.releases u) = true → ∃ o, es.filter (·.about u) = acts fn o u) := by
    intro o t x h1 h2 rfl
    rw [acts_any _ _ _ _ _ (h2 u), List.filter_append]
    have hx : [x].filter (·.about u) = [] := by simp [h1]
    rw [hx, List.append_nil]
    refine ⟨?_, ?_⟩
    · intro h; simp only [decide_eq_false_iff_not] at h; cases fn <;> simp [acts, Event.about, h]
    · intro h; simp only [decide_eq_true_eq] at h; subst h; exact ⟨o, by cases fn <;> simp [acts, Event.about]⟩
  cases step_eff hs with
  | make => subst es; exact ⟨fun _ => rfl, fun h => by cases h⟩
  | empty => subst es; exact ⟨fun _ => rfl, fun h => by cases h⟩
  | move => subst es; exact ⟨fun _ => rfl, fun h => by cases h⟩
  | swap => subst es; exact ⟨fun _ => rfl, fun h => by cases h⟩
  | assign0 => subst es; exact ⟨fun _ => rfl, fun h => by cases h⟩
  | assign1 d src t ha hb hd e ee => exact key d t _ (fun _ => rfl) (fun _ => rfl) ee
  | destroy0 => subst es; exact ⟨fun _ => rfl, fun h => by cases h⟩
  | destroy1 o t ha hd e ee => exact key o t _ (fun _ => rfl) (fun _ => rfl) ee
  | dead o t hl' => rw [hl] at hl'; cases hl'
  | threw o t hl' => rw [hl] at hl'; cases hl'
  | released o t hl' => rw [hl] at hl'; cases hl'
  | nothing o hl' => rw [hl] at hl'; cases hl'

/-- **C50, the action exactly once.** If the client leaves the threads to the objects (and no join throws), then what has been done to a thread is nothing, as long as an
object holds it, and exactly the action, once, by one object, when none holds it any more. -/
theorem action_exactly_once (fn : Fn) {ls : List Label} {s : State} {es : List Event} (h : run (step fn) {} ls = some (s, es)) (hp : ∀ l ∈ ls, l.plain = true)
    {o t : Nat} (hm : .made o t ∈ es) :
    ((∃ o', s.alive o' = true ∧ s.slot o' = some t) ∧ es.filter (·.about t) = []) ∨ ((∀ o', s.slot o' ≠ some t) ∧ ∃ o', es.filter (·.about t) = acts fn o' t) := by
  have hc : Cnt [] (fun t l => ∃ o, l = acts fn o t) s (fun u => es.filter (·.about u)) := by
    clear hm
    have : ∀ (s₀ : State) (hist : List Event), Cnt [] (fun t l => ∃ o, l = acts fn o t) s₀ (fun u => hist.filter (·.about u)) →
        run (step fn) s₀ ls = some (s, es) → Cnt [] (fun t l => ∃ o, l = acts fn o t) s (fun u => (hist ++ es).filter (·.about u)) := by
      clear h
      induction ls generalizing es with
      | nil => intro s₀ hist hc hr; simp only [run_nil, Option.some.injEq, Prod.mk.injEq] at hr; obtain ⟨rfl, rfl⟩ := hr; simpa using hc
      | cons l ls ih =>
        intro s₀ hist hc hr
        obtain ⟨m, e1, e2, h1, h2, rfl⟩ := run_cons hr
        have hl := hp l (by simp)
        rw [← List.append_assoc]
        refine ih (fun l hl => hp l (List.mem_cons_of_mem _ hl)) m (hist ++ e1) (step_cnt hc h1 ?_ ?_) h2
        · intro u hu; simp only [List.filter_append, (plain_about hl h1 u).1 hu, List.append_nil]
        · intro u hu h0
          obtain ⟨o, ho⟩ := (plain_about hl h1 u).2 hu
          exact ⟨o, by simp only [List.filter_append, h0, ho, List.nil_append]⟩
    exact this {} [] ⟨Inv_init, by simp, by simp, by simp⟩ h
  rcases never_lost fn h hm with ⟨h1, h2⟩ | ⟨o', h1, h2, -⟩
  · refine .inr ⟨h2, hc.rest t ?_ h2⟩
    refine Nat.lt_of_not_le fun hle => ?_
    have := (cnt_run h).fresh t hle
    omega
  · exact .inl ⟨⟨o', h1, h2⟩, hc.held o' t h2⟩

/-! ## Concrete executions -/

/-- Two threads; one is assigned over (joined at that moment), the other ends with its new owner; the moved-from objects do nothing. -/
example : ∃ s, run (step .interruptJoinIf) {} [.make 0, .make 1, .assign 0 1 .ok, .moveCtor 2 0, .destroy 0 .ok, .destroy 1 .ok, .destroy 2 .ok] =
    some (s, [.made 0 0, .made 1 1, .interrupted 0 0, .joined 0 0, .assigned 0 1, .moved 2 0, .destroyed 0, .destroyed 1, .interrupted 2 1, .joined 2 1, .destroyed 2]) :=
  ⟨_, rfl⟩

/-- An interrupted join in an assignment leaves both objects as they were. -/
example : ∃ s es, run (step .joinIf) {} [.make 0, .make 1, .assign 0 1 .interrupted] = some (s, es) ∧ s.slot 0 = some 0 ∧ s.slot 1 = some 1 := ⟨_, _, rfl, rfl, rfl⟩

/-- The specification rejects an object destroyed or overwritten with its thread, and a thread released by a moved-from object. -/
example : ¬ Accepts next {} [.made 0 0, .destroyed 0] := by decide
example : ¬ Accepts next {} [.made 0 0, .made 1 1, .assigned 0 1] := by decide
example : ¬ Accepts next {} [.made 0 0, .moved 1 0, .joined 0 0] := by decide

/-- **C50 is false for an object assigned to itself:** nothing else is assigned over it and it is not destroyed, yet the action is applied and its thread is gone. -/
theorem self_assignment_applies_action : ∃ s, run (step .detach) {} [.make 0, .assign 0 0 .ok] = some (s, [.made 0 0, .detached 0 0, .assigned 0 0]) ∧
    s.alive 0 = true ∧ s.slot 0 = none := ⟨_, rfl, rfl, rfl⟩

/-- An object destroyed by the very thread it holds ends the program (join throws out of the destructor). -/
theorem self_join_terminates : ∃ s, run (step .joinIf) {} [.make 0, .destroy 0 .self] = some (s, [.made 0 0, .joinThrew 0 0, .terminated 0]) ∧ s.dead = true := ⟨_, rfl, rfl⟩

end Verif.ScopedThread
