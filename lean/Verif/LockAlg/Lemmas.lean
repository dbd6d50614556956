import Verif.LockAlg.Spec
/-! # Lemmas about the lock algorithms -/

set_option linter.unusedSimpArgs false

namespace Verif.LockAlg

theorem Leaves.snoc {tr : Trace} {h h' : List Nat} {op : Op} (hl : Leaves tr h) (ho : specNext h op = .ok h') : Leaves (tr ++ [op]) h' := by
  simp only [Leaves] at *
  rw [specState_append, hl]
  simp [specState, ho]

theorem Leaves.try_ {tr : Trace} {h : List Nat} {m : Nat} (r : TryResult) (hl : Leaves tr h) :
    Leaves (tr ++ [.tryLock m r]) (if r = .yes then m :: h else h) := hl.snoc rfl

theorem Leaves.unlock {tr : Trace} {h : List Nat} {m : Nat} (hl : Leaves tr h) (hm : m ∈ h) : Leaves (tr ++ [.unlock m]) (h.erase m) :=
  hl.snoc (by simp [specNext, hm])

theorem Leaves.lock {tr : Trace} {m : Nat} (ok : Bool) (hl : Leaves tr []) : Leaves (tr ++ [.lock m ok]) (if ok then [m] else []) :=
  hl.snoc (by simp [specNext])

theorem Leaves.unlockAll {tr : Trace} {h h' ms : List Nat} (hl : Leaves tr h) (hp : h.Perm (ms ++ h')) :
    ∃ h'', Leaves (tr ++ unlockAll ms) h'' ∧ h''.Perm h' := by
  induction ms generalizing tr h with
  | nil => exact ⟨h, by simpa [LockAlg.unlockAll] using hl, by simpa using hp⟩
  | cons m ms ih =>
    have hm : m ∈ h := hp.mem_iff.mpr (by simp)
    obtain ⟨h'', h1, h2⟩ := ih (hl.unlock hm) (by have := hp.erase m; simpa using this)
    exact ⟨h'', by simpa [LockAlg.unlockAll] using h1, h2⟩

/-- What a good outcome of a call over `ms` is: it starts holding `h`; `done` says which results mean that all are held. -/
structure Good {α : Type} (h ms : List Nat) (done : α → Prop) (o : Out α) : Prop where
  ret : ∀ tr a, o = .returned tr a → done a → ∃ h', Leaves tr h' ∧ h'.Perm (ms ++ h)
  fail : ∀ tr a, o = .returned tr a → ¬ done a → Leaves tr h
  thr : ∀ tr, o = .threw tr → Leaves tr h
  run : ∀ tr, o = .running tr → ∃ h', Leaves tr h'
  spin : ∀ tr, o ≠ .spins tr

theorem tryInternal_good (env : Env) (tr : Trace) (h ms : List Nat) (hl : Leaves tr h) :
    Good h ms (· = 0) (tryInternal env tr ms) ∧ (∀ tr' f, tryInternal env tr ms = .returned tr' f → f ≤ ms.length) ∧
      (∀ tr', tryInternal env tr ms ≠ .running tr') := by
  induction ms generalizing tr h with
  | nil =>
    simp only [tryInternal]
    exact ⟨⟨by rintro tr a ⟨⟩ _; exact ⟨h, hl, by simp⟩, by rintro tr a ⟨⟩ h; simp at h, by simp, by simp, by simp⟩, by rintro _ _ ⟨⟩; simp, by simp⟩
  | cons m ms ih =>
    cases ms with
    | nil =>
      simp only [tryInternal]
      split
      · exact ⟨⟨by rintro tr a ⟨⟩ _; exact ⟨_, hl.try_ .yes, by simp⟩, by rintro tr a ⟨⟩ h; simp at h, by simp, by simp, by simp⟩,
          by rintro _ _ ⟨⟩; simp, by simp⟩
      · exact ⟨⟨by rintro tr a ⟨⟩ h; simp at h, by rintro tr a ⟨⟩ _; exact hl.try_ .no, by simp, by simp, by simp⟩, by rintro _ _ ⟨⟩; simp, by simp⟩
      · exact ⟨⟨by simp, by simp, by rintro tr ⟨⟩; exact hl.try_ .throws, by simp, by simp⟩, by simp, by simp⟩
    | cons m' ms =>
      simp only [tryInternal]
      split
      · exact ⟨⟨by simp, by simp, by rintro tr ⟨⟩; exact hl.try_ .throws, by simp, by simp⟩, by simp, by simp⟩
      · exact ⟨⟨by rintro tr a ⟨⟩ h; simp at h, by rintro tr a ⟨⟩ _; exact hl.try_ .no, by simp, by simp, by simp⟩, by rintro _ _ ⟨⟩; simp, by simp⟩
      · obtain ⟨i1, i2, i3⟩ := ih (tr ++ [.tryLock m .yes]) (m :: h) (hl.try_ .yes)
        split
        · next heq =>
          refine ⟨⟨?_, by rintro tr a ⟨⟩ h; simp at h, by simp, by simp, by simp⟩, by rintro _ _ ⟨⟩; simp, by simp⟩
          rintro tr a ⟨⟩ _
          obtain ⟨h', h1, h2⟩ := i1.ret _ _ heq rfl
          exact ⟨h', h1, h2.trans (by simpa using (List.perm_middle (l₁ := m' :: ms) (a := m) (l₂ := h)))⟩
        · next f heq =>
          have := i1.fail _ _ heq (by simp)
          refine ⟨⟨by rintro tr a ⟨⟩ h; simp at h, ?_, by simp, by simp, by simp⟩, ?_, by simp⟩
          · rintro tr a ⟨⟩ _
            simpa using this.unlock (m := m) (by simp)
          · rintro _ _ ⟨⟩
            have := i2 _ _ heq
            simp at this ⊢; omega
        · next o h0 h1 =>
          cases ho : tryInternal env (tr ++ [.tryLock m .yes]) (m' :: ms) with
          | returned tr' f =>
            cases f with
            | zero => exact absurd ho (h0 tr')
            | succ f => exact absurd ho (h1 tr' f)
          | threw tr' =>
            simp only [Out.onThrow]
            have := i1.thr _ ho
            exact ⟨⟨by simp, by simp, by rintro tr ⟨⟩; simpa using this.unlock (m := m) (by simp), by simp, by simp⟩, by simp, by simp⟩
          | running tr' => exact absurd ho (i3 tr')
          | spins tr' => exact absurd ho (i1.spin tr')

theorem lockHelper_good (env : Env) (tr : Trace) (ms : List Nat) (hl : Leaves tr []) (hms : ms ≠ []) :
    Good [] ms (· = 0) (lockHelper env tr ms) ∧ (∀ tr' f, lockHelper env tr ms = .returned tr' f → f < ms.length) := by
  cases ms with
  | nil => exact absurd rfl hms
  | cons m ms =>
    simp only [lockHelper]
    split
    · obtain ⟨i1, i2, i3⟩ := tryInternal_good env (tr ++ [.lock m true]) [m] ms (hl.lock true)
      split
      · next heq =>
        refine ⟨⟨?_, by rintro tr a ⟨⟩ h; simp at h, by simp, by simp, by simp⟩, by rintro _ _ ⟨⟩; simp⟩
        rintro tr a ⟨⟩ _
        obtain ⟨h', h1, h2⟩ := i1.ret _ _ heq rfl
        exact ⟨h', h1, h2.trans (by simp)⟩
      · next f heq =>
        have := i1.fail _ _ heq (by simp)
        refine ⟨⟨by rintro tr a ⟨⟩ h; simp at h, ?_, by simp, by simp, by simp⟩, ?_⟩
        · rintro tr a ⟨⟩ _
          simpa using this.unlock (m := m) (by simp)
        · rintro _ _ ⟨⟩
          have := i2 _ _ heq
          simp; omega
      · next o h0 h1 =>
        cases ho : tryInternal env (tr ++ [.lock m true]) ms with
        | returned tr' f =>
          cases f with
          | zero => exact absurd ho (h0 tr')
          | succ f => exact absurd ho (h1 tr' f)
        | threw tr' =>
          simp only [Out.onThrow]
          have := i1.thr _ ho
          exact ⟨⟨by simp, by simp, by rintro tr ⟨⟩; simpa using this.unlock (m := m) (by simp), by simp, by simp⟩, by simp⟩
        | running tr' => exact absurd ho (i3 tr')
        | spins tr' => exact absurd ho (i1.spin tr')
    · exact ⟨⟨by simp, by simp, by rintro tr ⟨⟩; exact hl.lock false, by simp, by simp⟩, by simp⟩

/-- Two to five lockables. -/
def Arity (ms : List Nat) : Prop := 2 ≤ ms.length ∧ ms.length ≤ 5

theorem arity_cases {ms : List Nat} (h : Arity ms) :
    (∃ a b, ms = [a, b]) ∨ (∃ a b c, ms = [a, b, c]) ∨ (∃ a b c d, ms = [a, b, c, d]) ∨ (∃ a b c d e, ms = [a, b, c, d, e]) := by
  obtain ⟨h1, h2⟩ := h
  match ms, h1, h2 with
  | [a, b], _, _ => exact Or.inl ⟨a, b, rfl⟩
  | [a, b, c], _, _ => exact Or.inr (Or.inl ⟨a, b, c, rfl⟩)
  | [a, b, c, d], _, _ => exact Or.inr (Or.inr (Or.inl ⟨a, b, c, d, rfl⟩))
  | [a, b, c, d, e], _, _ => exact Or.inr (Or.inr (Or.inr ⟨a, b, c, d, e, rfl⟩))
  | _ :: _ :: _ :: _ :: _ :: _ :: _, _, h => simp at h

/-- Each `case` passes the lockables in rotated order. -/
theorem caseArgs_eq {ms : List Nat} (h : Arity ms) {i : Nat} (hi : i < ms.length) : caseArgs ms i = some (ms.drop i ++ ms.take i) := by
  rcases arity_cases h with ⟨a, b, rfl⟩ | ⟨a, b, c, rfl⟩ | ⟨a, b, c, d, rfl⟩ | ⟨a, b, c, d, e, rfl⟩ <;> simp at hi
  · match i, hi with
    | 0, _ => rfl
    | 1, _ => rfl
  · match i, hi with
    | 0, _ => rfl
    | 1, _ => rfl
    | 2, _ => rfl
  · match i, hi with
    | 0, _ => rfl
    | 1, _ => rfl
    | 2, _ => rfl
    | 3, _ => rfl
  · match i, hi with
    | 0, _ => rfl
    | 1, _ => rfl
    | 2, _ => rfl
    | 3, _ => rfl
    | 4, _ => rfl

theorem lockLoop_good (env : Env) (ms : List Nat) (ha : Arity ms) (fuel : Nat) (tr : Trace) (hl : Leaves tr []) (first : Nat)
    (hf : first < ms.length) : Good [] ms (fun _ => True) (lockLoop env ms fuel tr first) := by
  induction fuel generalizing tr first with
  | zero => exact ⟨by simp [lockLoop], by simp [lockLoop], by simp [lockLoop], by rintro _ ⟨⟩; exact ⟨_, hl⟩, by simp [lockLoop]⟩
  | succ fuel ih =>
    simp only [lockLoop, caseArgs_eq ha hf]
    have hperm : (ms.drop first ++ ms.take first).Perm ms := by
      have := List.perm_append_comm (l₁ := ms.drop first) (l₂ := ms.take first)
      rwa [List.take_append_drop] at this
    have hne : ms.drop first ++ ms.take first ≠ [] := by
      intro h; have := congrArg List.length h; simp at this; omega
    obtain ⟨g, gl⟩ := lockHelper_good env tr (ms.drop first ++ ms.take first) hl hne
    split
    · next heq =>
      obtain ⟨h', h1, h2⟩ := g.ret _ _ heq rfl
      exact ⟨by rintro tr a ⟨⟩ _; exact ⟨h', h1, h2.trans (by simpa using hperm)⟩, by simp, by simp, by simp, by simp⟩
    · next f heq =>
      have h1 := gl _ _ heq
      simp at h1
      refine ih _ (g.fail _ _ heq (by simp)) _ ?_
      simp only [nextFirst]
      split
      · omega
      · exact Nat.mod_lt _ (by omega)
    · next heq => exact ⟨by simp, by simp, by rintro tr ⟨⟩; exact g.thr _ heq, by simp, by simp⟩
    · next heq => exact ⟨by simp, by simp, by simp, by rintro tr ⟨⟩; exact g.run _ heq, by simp⟩
    · next heq => exact absurd heq (g.spin _)

/-! ## Ranges -/

theorem tryRange_good (env : Env) (tr : Trace) (h ms : List Nat) (hl : Leaves tr h) :
    Good h ms (· = none) (tryRange env tr ms) ∧ (∀ tr' j, tryRange env tr ms = .returned tr' (some j) → j < ms.length) ∧
      (∀ tr', tryRange env tr ms ≠ .running tr') := by
  induction ms generalizing tr h with
  | nil =>
    simp only [tryRange]
    exact ⟨⟨by rintro tr a ⟨⟩ _; exact ⟨h, hl, by simp⟩, by rintro tr a ⟨⟩ h; simp at h, by simp, by simp, by simp⟩, by simp, by simp⟩
  | cons m ms ih =>
    simp only [tryRange]
    split
    · exact ⟨⟨by simp, by simp, by rintro tr ⟨⟩; exact hl.try_ .throws, by simp, by simp⟩, by simp, by simp⟩
    · exact ⟨⟨by rintro tr a ⟨⟩ h; simp at h, by rintro tr a ⟨⟩ _; exact hl.try_ .no, by simp, by simp, by simp⟩, by rintro _ _ ⟨⟩; simp, by simp⟩
    · obtain ⟨i1, i2, i3⟩ := ih (tr ++ [.tryLock m .yes]) (m :: h) (hl.try_ .yes)
      split
      · next heq =>
        refine ⟨⟨?_, by rintro tr a ⟨⟩ h; simp at h, by simp, by simp, by simp⟩, by simp, by simp⟩
        rintro tr a ⟨⟩ _
        obtain ⟨h', h1, h2⟩ := i1.ret _ _ heq rfl
        exact ⟨h', h1, h2.trans (by simp)⟩
      · next j heq =>
        have := i1.fail _ _ heq (by simp)
        refine ⟨⟨by rintro tr a ⟨⟩ h; simp at h, ?_, by simp, by simp, by simp⟩, ?_, by simp⟩
        · rintro tr a ⟨⟩ _
          simpa using this.unlock (m := m) (by simp)
        · rintro _ _ ⟨⟩
          have := i2 _ _ heq
          simp; omega
      · next o h0 h1 =>
        cases ho : tryRange env (tr ++ [.tryLock m .yes]) ms with
        | returned tr' f =>
          cases f with
          | none => exact absurd ho (h0 tr')
          | some f => exact absurd ho (h1 tr' f)
        | threw tr' =>
          simp only [Out.onThrow]
          have := i1.thr _ ho
          exact ⟨⟨by simp, by simp, by rintro tr ⟨⟩; simpa using this.unlock (m := m) (by simp), by simp, by simp⟩, by simp, by simp⟩
        | running tr' => exact absurd ho (i3 tr')
        | spins tr' => exact absurd ho (i1.spin tr')

theorem rangeLoop_good (env : Env) (fuel : Nat) (tr : Trace) (hl : Leaves tr []) (b : Nat) (rest : List Nat) (swb : Bool) (next : Nat)
    (hn : swb = true → next = 0) : Good [] (b :: rest) (fun _ => True) (rangeLoop env fuel tr b rest swb next) := by
  induction fuel generalizing tr b rest swb next with
  | zero => exact ⟨by simp [rangeLoop], by simp [rangeLoop], by simp [rangeLoop], by simp only [rangeLoop]; rintro _ ⟨⟩; exact ⟨_, hl⟩, by simp [rangeLoop]⟩
  | succ fuel ih =>
    cases swb with
    | true =>
      have h0 := hn rfl
      subst h0
      simp only [rangeLoop, List.drop_zero]
      split
      · obtain ⟨i1, i2, i3⟩ := tryRange_good env (tr ++ [.lock b true]) [b] rest (hl.lock true)
        split
        · next heq =>
          obtain ⟨h', h1, h2⟩ := i1.ret _ _ heq rfl
          exact ⟨by rintro tr a ⟨⟩ _; exact ⟨h', h1, h2.trans (by simp)⟩,
            by simp, by simp, by simp, by simp⟩
        · next j heq =>
          have := i1.fail _ _ heq (by simp)
          exact ih _ (by simpa using this.unlock (m := b) (by simp)) _ _ _ _ (by simp)
        · next heq =>
          have := i1.thr _ heq
          exact ⟨by simp, by simp, by rintro tr ⟨⟩; simpa using this.unlock (m := b) (by simp), by simp, by simp⟩
        · next heq => exact absurd heq (i3 _)
        · next heq => exact absurd heq (i1.spin _)
      · exact ⟨by simp, by simp, by rintro tr ⟨⟩; exact hl.lock false, by simp, by simp⟩
    | false =>
      simp only [rangeLoop]
      have gi : Good [] (rest.drop next) (fun _ => True) (onRange tr (fun b' rest' => rangeLoop env fuel tr b' rest' true 0) (rest.drop next)) := by
        cases rest.drop next with
        | nil => exact ⟨by simp only [onRange]; rintro tr a ⟨⟩ _; exact ⟨[], hl, by simp⟩, by simp, by simp [onRange], by simp [onRange], by simp [onRange]⟩
        | cons b' rest' => exact ih _ hl _ _ _ _ (by simp)
      revert gi
      generalize onRange tr (fun b' rest' => rangeLoop env fuel tr b' rest' true 0) (rest.drop next) = inner
      intro gi
      cases inner with
      | returned tr1 u =>
        obtain ⟨h', h1, h2⟩ := gi.ret _ _ rfl trivial
        simp only [List.append_nil] at h2
        have un : ∀ (tr : Trace) (h : List Nat), Leaves tr h → h.Perm (rest.drop next) → Leaves (tr ++ unlockAll (rest.drop next)) [] := by
          intro tr h hl hp
          obtain ⟨h'', k1, k2⟩ := hl.unlockAll (h' := []) (by simpa using hp)
          rw [List.perm_nil.mp k2] at k1; exact k1
        simp only
        split
        · refine ⟨by simp, by simp, ?_, by simp, by simp⟩
          rintro tr ⟨⟩; exact un _ _ (h1.try_ .throws) h2
        · exact ih _ (un _ _ (h1.try_ .no) h2) _ _ _ _ (by simp)
        · obtain ⟨i1, i2, i3⟩ := tryRange_good env (tr1 ++ [.tryLock b .yes]) (b :: h') (rest.take next) (h1.try_ .yes)
          have un2 : ∀ tr2, Leaves tr2 (b :: h') → Leaves (tr2 ++ unlockAll (rest.drop next) ++ [.unlock b]) [] := by
            intro tr2 hl2
            obtain ⟨h'', k1, k2⟩ := hl2.unlockAll (ms := rest.drop next) (h' := [b])
              ((List.Perm.cons b h2).trans (by simpa using (List.perm_middle (l₁ := rest.drop next) (a := b) (l₂ := [])).symm))
            have := k1.unlock (m := b) (k2.mem_iff.mpr (by simp))
            have e : h''.erase b = [] := List.perm_nil.mp ((k2.erase b).trans (by simp))
            rwa [e] at this
          split
          · next heq =>
            obtain ⟨h'', k1, k2⟩ := i1.ret _ _ heq rfl
            refine ⟨?_, by simp, by simp, by simp, by simp⟩
            rintro tr a ⟨⟩ _
            refine ⟨h'', k1, k2.trans ?_⟩
            have : (rest.take next ++ b :: h').Perm (rest.take next ++ b :: rest.drop next) := (List.Perm.cons b h2).append_left _
            refine this.trans ?_
            refine List.perm_middle.trans ?_
            rw [List.take_append_drop]; simp
          · next j heq => exact ih _ (un2 _ (i1.fail _ _ heq (by simp))) _ _ _ _ (by simp)
          · next heq => exact ⟨by simp, by simp, by rintro tr ⟨⟩; exact un2 _ (i1.thr _ heq), by simp, by simp⟩
          · next heq => exact absurd heq (i3 _)
          · next heq => exact absurd heq (i1.spin _)
      | threw tr1 => exact ⟨by simp, by simp, gi.thr, by simp, by simp⟩
      | running tr1 => exact ⟨by simp, by simp, by simp, gi.run, by simp⟩
      | spins tr1 => exact absurd rfl (gi.spin tr1)

/-! ## Faithfulness -/

theorem Faithful.nil (env : Env) : Faithful env [] := by
  intro pre op post h; simp at h

theorem Faithful.snoc {env : Env} {tr : Trace} (h : Faithful env tr) {op : Op}
    (ho : match op with
      | .lock m ok => env.lock tr m = ok
      | .tryLock m r => env.tryLock tr m = r
      | .unlock _ => True) : Faithful env (tr ++ [op]) := by
  intro pre op' post he
  rcases List.eq_nil_or_concat post with rfl | ⟨post', x, rfl⟩
  · obtain ⟨rfl, h2⟩ := List.append_inj' he rfl
    cases h2; exact ho
  · have : tr ++ [op] = (pre ++ op' :: post') ++ [x] := by simpa using he
    obtain ⟨h1, _⟩ := List.append_inj' this rfl
    exact h pre op' post' h1

theorem Faithful.unlocks {env : Env} {tr : Trace} (h : Faithful env tr) (ms : List Nat) : Faithful env (tr ++ unlockAll ms) := by
  induction ms generalizing tr with
  | nil => simpa [unlockAll] using h
  | cons m ms ih =>
    have := ih (h.snoc (op := .unlock m) trivial)
    simpa [unlockAll] using this

theorem Faithful.unlock {env : Env} {tr : Trace} (h : Faithful env tr) (m : Nat) : Faithful env (tr ++ [.unlock m]) := h.snoc trivial

theorem Faithful.onThrow {α : Type} {env : Env} {o : Out α} (h : Faithful env o.trace) (m : Nat) : Faithful env (o.onThrow [.unlock m]).trace := by
  cases o with
  | threw tr => exact Faithful.unlock h m
  | _ => exact h

theorem tryInternal_faithful (env : Env) (ms : List Nat) (tr : Trace) (h : Faithful env tr) : Faithful env (tryInternal env tr ms).trace := by
  induction ms generalizing tr with
  | nil => exact h
  | cons m ms ih =>
    have hs : ∀ r, env.tryLock tr m = r → Faithful env (tr ++ [.tryLock m r]) := fun r e => h.snoc e
    cases ms with
    | nil =>
      simp only [tryInternal]
      split <;> exact hs _ (by assumption)
    | cons m' ms =>
      simp only [tryInternal]
      split
      · exact hs _ (by assumption)
      · exact hs _ (by assumption)
      · next heq =>
        have := ih _ (hs _ heq)
        split
        · next h' => rw [h'] at this; exact this
        · next h' => rw [h'] at this; exact this.unlock m
        · exact this.onThrow m

theorem tryRange_faithful (env : Env) (ms : List Nat) (tr : Trace) (h : Faithful env tr) : Faithful env (tryRange env tr ms).trace := by
  induction ms generalizing tr with
  | nil => exact h
  | cons m ms ih =>
    have hs : ∀ r, env.tryLock tr m = r → Faithful env (tr ++ [.tryLock m r]) := fun r e => h.snoc e
    simp only [tryRange]
    split
    · exact hs _ (by assumption)
    · exact hs _ (by assumption)
    · next heq =>
      have := ih _ (hs _ heq)
      split
      · next h' => rw [h'] at this; exact this
      · next h' => rw [h'] at this; exact this.unlock m
      · exact this.onThrow m

theorem lockHelper_faithful (env : Env) (ms : List Nat) (tr : Trace) (h : Faithful env tr) : Faithful env (lockHelper env tr ms).trace := by
  cases ms with
  | nil => exact h
  | cons m ms =>
    simp only [lockHelper]
    split
    · next heq =>
      have := tryInternal_faithful env ms (tr ++ [.lock m true]) (h.snoc heq)
      split
      · next h' => rw [h'] at this; exact this
      · next h' => rw [h'] at this; exact this.unlock m
      · exact this.onThrow m
    · next heq => exact h.snoc (by simpa using heq)

theorem lockLoop_faithful (env : Env) (ms : List Nat) (fuel : Nat) (tr : Trace) (first : Nat) (h : Faithful env tr) :
    Faithful env (lockLoop env ms fuel tr first).trace := by
  induction fuel generalizing tr first with
  | zero => exact h
  | succ fuel ih =>
    simp only [lockLoop]
    split
    · exact h
    · next args _ =>
      have := lockHelper_faithful env args tr h
      split <;> next h' => (rw [h'] at this; first | exact this | exact ih _ _ this)

theorem rangeLoop_faithful (env : Env) (fuel : Nat) (tr : Trace) (b : Nat) (rest : List Nat) (swb : Bool) (next : Nat) (h : Faithful env tr) :
    Faithful env (rangeLoop env fuel tr b rest swb next).trace := by
  induction fuel generalizing tr b rest swb next with
  | zero => cases swb <;> exact h
  | succ fuel ih =>
    cases swb with
    | true =>
      simp only [rangeLoop]
      split
      · next heq =>
        have := tryRange_faithful env (rest.drop next) (tr ++ [.lock b true]) (h.snoc heq)
        split <;> next h' =>
          (rw [h'] at this; first | exact this | exact Faithful.unlock this b | exact ih _ _ _ _ _ (Faithful.unlock this b))
      · next heq => exact h.snoc (by simpa using heq)
    | false =>
      simp only [rangeLoop]
      have h1 : Faithful env (onRange tr (fun b' rest' => rangeLoop env fuel tr b' rest' true 0) (rest.drop next)).trace := by
        cases rest.drop next with
        | nil => exact h
        | cons b' rest' => exact ih _ _ _ _ _ h
      split
      · next tr1 _ h' =>
        rw [h'] at h1
        have h1 : Faithful env tr1 := h1
        split
        · next heq => exact Faithful.unlocks (h1.snoc heq) _
        · next heq => exact ih _ _ _ _ _ (Faithful.unlocks (h1.snoc heq) _)
        · next heq =>
          have := tryRange_faithful env (rest.take next) (tr1 ++ [.tryLock b .yes]) (h1.snoc heq)
          split <;> next h' =>
            (rw [h'] at this; first | exact this | exact ih _ _ _ _ _ ((Faithful.unlocks this _).unlock b) | exact (Faithful.unlocks this _).unlock b)
      · exact h1

end Verif.LockAlg
