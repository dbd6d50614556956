import Verif.Stream.Sim
/-! # C79: what one thread writes in one expression is not interrupted by others -/

namespace Verif.Stream

/-- C79: every history of a guarded stream conforms to the specification, whatever the threads write, nest, hold and throw. -/
theorem conforms {recur : Bool} {ls : List Label} {s : State} {es : List Event} (h : run (step recur) init ls = some (s, es)) : Accepts next none es :=
  simulation R (fun _ _ _ _ _ hR hs => sim hR hs) R_init h

theorem accepts_split {σ : Spec} {p q : List Event} (h : Accepts next σ (p ++ q)) : ∃ σ', specState next σ p = some σ' ∧ Accepts next σ' q := by
  induction p generalizing σ with
  | nil => exact ⟨σ, rfl, h⟩
  | cons e p ih =>
    simp only [List.cons_append, Accepts] at h
    simp only [specState]
    cases hn : next σ e with
    | ok s' => rw [hn] at h; exact ih h
    | undefined => revert hn; unfold next; (repeat' split) <;> intro h <;> cases h
    | illegal => rw [hn] at h; exact h.elim

theorem written_of_mem {q : List Event} {x : Nat × Char} (h : x ∈ written q) : Event.put x.1 x.2 ∈ q := by
  induction q with
  | nil => cases h
  | cons e q ih =>
    cases e <;> simp only [written] at h
    case put t c =>
      rcases List.mem_cons.1 h with e | e
      · subst e; exact List.mem_cons_self ..
      · exact List.mem_cons_of_mem _ (ih e)
    all_goals exact List.mem_cons_of_mem _ (ih h)

/-- As long as the thread has guards left, all that is written is its own. -/
theorem only_owner {t : Nat} {q : List Event} : ∀ {gs : List (Option (List Char))}, gs ≠ [] → Accepts next (some (t, gs)) q →
    (∀ q', q' <+: q → gone t q' ≤ begun t q' + (gs.length - 1)) → ∀ x ∈ written q, x.1 = t := by
  induction q with
  | nil => intro gs _ _ _ x hx; cases hx
  | cons e q ih =>
    intro gs h0 h hb
    have tail : ∀ {gs' : List (Option (List Char))}, gs' ≠ [] → Accepts next (some (t, gs')) q →
        gone t [e] + (gs'.length - 1) = begun t [e] + (gs.length - 1) → ∀ x ∈ written q, x.1 = t := by
      intro gs' h1 h2 h3
      refine ih h1 h2 fun q' hq => ?_
      have := hb (e :: q') (List.prefix_cons_iff.2 (Or.inr ⟨q', rfl, hq⟩))
      have e1 : gone t (e :: q') = gone t [e] + gone t q' := by unfold gone; rw [← List.countP_append]; rfl
      have e2 : begun t (e :: q') = begun t [e] + begun t q' := by unfold begun; rw [← List.countP_append]; rfl
      omega
    have one := hb [e] (List.prefix_cons_iff.2 (Or.inr ⟨[], rfl, List.nil_prefix⟩))
    simp only [Accepts] at h
    cases gs with
    | nil => exact absurd rfl h0
    | cons g gs =>
    cases e with
    | began u =>
      by_cases hu : t = u
      · subst hu
        simp only [next, if_true] at h
        exact tail (by simp) h (by simp [gone, begun]; omega)
      · simp [next, hu] at h
    | arg u text =>
      cases g with
      | none =>
        by_cases hu : t = u
        · subst hu
          simp only [next, if_true] at h
          exact tail (by simp) h (by simp [gone, begun])
        · simp [next, hu] at h
      | some cs => cases cs <;> simp [next] at h
    | put u c =>
      rcases g with _ | _ | ⟨d, cs⟩
      · simp [next] at h
      · simp [next] at h
      · by_cases hu : t = u ∧ c = d
        · obtain ⟨rfl, rfl⟩ := hu
          simp only [next, and_self, if_true] at h
          intro x hx
          rcases List.mem_cons.1 hx with e | e
          · rw [e]
          · exact tail (gs' := some cs :: gs) (by simp) h (by simp [gone, begun]) x e
        · simp [next, hu] at h
    | argDone u =>
      rcases g with _ | _ | ⟨d, cs⟩
      · simp [next] at h
      · by_cases hu : t = u
        · subst hu
          simp only [next, if_true] at h
          exact tail (by simp) h (by simp [gone, begun])
        · simp [next, hu] at h
      · simp [next] at h
    | threw u =>
      rcases g with _ | cs
      · simp [next] at h
      · by_cases hu : t = u
        · subst hu
          rw [next_threw] at h
          exact tail (by simp) h (by simp [gone, begun])
        · cases cs <;> simp [next, hu] at h
    | ended u =>
      rcases g with _ | cs
      · by_cases hu : t = u
        · subst hu
          rw [next_ended] at h
          have : gs ≠ [] := by
            rintro rfl
            simp [gone, begun] at one
          rw [if_neg this] at h
          refine tail this h ?_
          have : 0 < gs.length := List.length_pos_iff.2 this
          simp [gone, begun]; omega
        · cases gs <;> simp [next, hu] at h
      · cases cs <;> simp [next] at h
    | broken u => simp [next] at h

/-- C79, atomic output: from the construction of a guard (the first `<<` of an expression, or `hold()`) on, as long as no more guards of that thread have ended
than it has begun since, that is, up to the end of that expression or scope, every character that goes out is written by that thread. -/
theorem not_interleaved {recur : Bool} {ls : List Label} {s : State} {p q : List Event} {t : Nat}
    (h : run (step recur) init ls = some (s, p ++ .began t :: q)) (hq : ∀ q', q' <+: q → gone t q' ≤ begun t q') : ∀ x ∈ written q, x.1 = t := by
  obtain ⟨σ, -, ha⟩ := accepts_split (conforms h)
  simp only [Accepts] at ha
  have : ∃ gs, next σ (.began t) = .ok (some (t, none :: gs)) := by
    rcases σ with _ | ⟨u, gs⟩
    · exact ⟨[], rfl⟩
    · by_cases hu : u = t
      · exact ⟨gs, by simp [next, hu]⟩
      · simp [next, hu] at ha
  obtain ⟨gs, hn⟩ := this
  rw [hn] at ha
  exact only_owner (by simp) ha fun q' h' => by have := hq q' h'; omega

/-- C79, whole texts: between the beginning and the end of the insertion of an argument that does not throw and does not itself write to the guarded stream, exactly
its text goes out, without anything of anybody in between. -/
theorem text_is_whole {recur : Bool} {ls : List Label} {s : State} {p q r : List Event} {t : Nat} {w : List Char}
    (h : run (step recur) init ls = some (s, p ++ .arg t w :: (q ++ .argDone t :: r)))
    (hq : ∀ e ∈ q, e ≠ .began t ∧ e ≠ .threw t ∧ e ≠ .argDone t) : written q = w.map fun c => (t, c) := by
  obtain ⟨σ, -, ha⟩ := accepts_split (conforms h)
  simp only [Accepts] at ha
  have : ∃ gs, next σ (.arg t w) = .ok (some (t, some w :: gs)) := by
    rcases σ with _ | ⟨u, _ | ⟨_ | _ | _, gs⟩⟩
    · simp [next] at ha
    · simp [next] at ha
    · by_cases hu : u = t
      · exact ⟨gs, by simp [next, hu]⟩
      · simp [next, hu] at ha
    · simp [next] at ha
    · simp [next] at ha
  obtain ⟨gs, hn⟩ := this
  rw [hn] at ha
  dsimp only at ha
  clear h hn
  induction q generalizing w with
  | nil =>
    simp only [List.nil_append, Accepts] at ha
    cases w with
    | nil => rfl
    | cons c cs => simp [next] at ha
  | cons e q ih =>
    have he := hq e (List.mem_cons_self ..)
    have hq' := fun e h => hq e (List.mem_cons_of_mem _ h)
    simp only [List.cons_append, Accepts] at ha
    cases e with
    | put u c =>
      cases w with
      | nil => simp [next] at ha
      | cons d cs =>
        by_cases hu : t = u ∧ c = d
        · obtain ⟨rfl, rfl⟩ := hu
          simp only [next, and_self, if_true] at ha
          simp only [written, List.map_cons, ih hq' ha]
        · simp [next, hu] at ha
    | began u =>
      have : ¬ t = u := fun e => he.1 (by rw [e])
      simp [next, this] at ha
    | threw u =>
      have : ¬ t = u := fun e => he.2.1 (by rw [e])
      cases w <;> simp [next, this] at ha
    | argDone u =>
      have : ¬ t = u := fun e => he.2.2 (by rw [e])
      cases w <;> simp [next, this] at ha
    | arg u text => cases w <;> simp [next] at ha
    | ended u => cases w <;> simp [next] at ha
    | broken u => cases w <;> simp [next] at ha

/-- The thread a label belongs to. -/
def Label.thread : Label → Nat
  | .start t _ => t
  | .hold t => t
  | .insert t _ => t
  | .put t => t
  | .ret t => t
  | .throw t _ => t
  | .fin t => t

/-- The labels that go on with what has been begun. -/
def Label.goesOn : Label → Bool
  | .put _ => true
  | .ret _ => true
  | .fin _ => true
  | _ => false

theorem destroy_stk (s : State) (t : Nat) (p : Bool) : (destroy s t p).1.stk = s.stk := by
  unfold destroy; (repeat' split) <;> rfl

/-- The innermost guard of a thread gets to its end by steps of that thread. -/
theorem finish_top {recur : Bool} {t : Nat} {r : List Frame} : ∀ (n : Nat) {s : State} {f : Frame}, s.stk t = f :: r →
    (match f.ph with | .first w => w.length + 2 | .idle => 1 | .more w => w.length + 2) = n →
    ∃ ls s' es, (∀ l ∈ ls, l.thread = t ∧ l.goesOn = true) ∧ run (step recur) s ls = some (s', es) ∧ s'.stk t = r ∧ ∀ u, u ≠ t → s'.stk u = s.stk u := by
  intro n
  induction n with
  | zero => intro s f h hn; split at hn <;> omega
  | succ n ih =>
    intro s f h hn
    have go : ∀ {l : Label} {s' : State} {es : List Event} {f' : Frame}, l.thread = t ∧ l.goesOn = true → step recur s l = some (s', es) → s'.stk = upd s.stk t (f' :: r) →
        (match f'.ph with | .first w => w.length + 2 | .idle => 1 | .more w => w.length + 2) = n →
        ∃ ls s' es, (∀ l ∈ ls, l.thread = t ∧ l.goesOn = true) ∧ run (step recur) s ls = some (s', es) ∧ s'.stk t = r ∧ ∀ u, u ≠ t → s'.stk u = s.stk u := by
      intro l s' es f' hl hs hk hm
      obtain ⟨ls, s'', es'', h1, h2, h3, h4⟩ := ih (s := s') (by rw [hk, upd_same]) hm
      refine ⟨l :: ls, s'', es ++ es'', ?_, by simp only [run, hs, h2], h3, fun u hu => ?_⟩
      · intro x hx
        rcases List.mem_cons.1 hx with e | e
        · exact e ▸ hl
        · exact h1 x e
      · rw [h4 u hu, hk, upd_ne hu]
    obtain ⟨lk, tmp, ph⟩ := f
    cases ph with
    | idle =>
      refine ⟨[.fin t], _, _, by simp [Label.thread, Label.goesOn], by simp only [run, step, h]; rfl, ?_, fun u hu => ?_⟩
      · simp [pop, upd_same]
      · simp only [pop, upd_ne hu, destroy_stk]
    | first w =>
      cases w with
      | nil =>
        refine go (l := .ret t) (f' := ⟨false, lk, .idle⟩) ⟨rfl, rfl⟩ (by simp only [step, h]; rfl) rfl ?_
        simp at hn ⊢; omega
      | cons c w =>
        refine go (l := .put t) (f' := ⟨lk, tmp, .first w⟩) ⟨rfl, rfl⟩ (by simp only [step, h]; rfl) rfl ?_
        simp at hn ⊢; omega
    | more w =>
      cases w with
      | nil =>
        refine go (l := .ret t) (f' := ⟨lk, tmp, .idle⟩) ⟨rfl, rfl⟩ (by simp only [step, h]; rfl) rfl ?_
        simp at hn ⊢; omega
      | cons c w =>
        refine go (l := .put t) (f' := ⟨lk, tmp, .more w⟩) ⟨rfl, rfl⟩ (by simp only [step, h]; rfl) rfl ?_
        simp at hn ⊢; omega

theorem finish_all {recur : Bool} {t : Nat} : ∀ (r : List Frame) {s : State}, s.stk t = r →
    ∃ ls s' es, (∀ l ∈ ls, l.thread = t ∧ l.goesOn = true) ∧ run (step recur) s ls = some (s', es) ∧ s'.stk t = [] ∧ ∀ u, u ≠ t → s'.stk u = s.stk u := by
  intro r
  induction r with
  | nil => intro s h; exact ⟨[], s, [], by simp, rfl, h, fun _ _ => rfl⟩
  | cons f r ih =>
    intro s h
    obtain ⟨l1, s1, e1, a1, a2, a3, a4⟩ := finish_top (recur := recur) _ h rfl
    obtain ⟨l2, s2, e2, b1, b2, b3, b4⟩ := ih a3
    refine ⟨l1 ++ l2, s2, e1 ++ e2, ?_, run_append a2 b2, b3, fun u hu => by rw [b4 u hu, a4 u hu]⟩
    intro l hl
    rcases List.mem_append.1 hl with e | e
    · exact a1 l e
    · exact b1 l e

theorem R.free {s : State} {σ : Spec} (hR : R s σ) (h : ∀ t, s.stk t = []) : s.owner = none := by
  rcases σ with _ | ⟨t, gs⟩
  · exact hR.1
  · obtain ⟨-, h2, -, h4, -⟩ := hR
    rw [h t] at h4
    exact absurd h4.symm h2

theorem reach_R {recur : Bool} {ls : List Label} {s : State} {es : List Event} (h : run (step recur) init ls = some (s, es)) : ∃ σ, R s σ := by
  refine run_inv (fun s => ∃ σ, R s σ) ?_ ⟨none, R_init⟩ h
  intro s l s' es ⟨σ, hR⟩ hs
  have := sim hR hs
  clear hs hR
  induction es generalizing σ with
  | nil => exact ⟨σ, this⟩
  | cons e es ih =>
    simp only [Follows] at this
    cases hn : next σ e with
    | ok s' => rw [hn] at this; exact ih _ this
    | undefined => revert hn; unfold next; (repeat' split) <;> intro h <;> cases h
    | illegal => rw [hn] at this; exact this.elim

/-- C79, no waiting inside: a thread that has a guard comes to the end of what it has begun by its own steps, without waiting for any other thread, and then the
stream is free: every other thread, and this one, can begin. -/
theorem finishes {recur : Bool} {ls : List Label} {s : State} {es : List Event} (h : run (step recur) init ls = some (s, es)) {t : Nat} (ht : s.stk t ≠ []) :
    ∃ ls' s' es', (∀ l ∈ ls', l.thread = t ∧ l.goesOn = true) ∧ run (step recur) s ls' = some (s', es') ∧ s'.stk t = [] ∧
      ∀ u w, (step recur s' (.start u w)).isSome ∧ (step recur s' (.hold u)).isSome := by
  obtain ⟨l2, s2, e2, h1, h2, h3, h4⟩ := finish_all (recur := recur) (s.stk t) (s := s) rfl
  refine ⟨l2, s2, e2, h1, h2, h3, ?_⟩
  obtain ⟨σ, hR⟩ := reach_R h
  obtain ⟨σ', hR'⟩ := reach_R (run_append h h2)
  have : s2.owner = none := by
    refine hR'.free fun u => ?_
    by_cases e : u = t
    · rw [e, h3]
    · rw [h4 u e]
      cases hk : s.stk t with
      | nil => exact absurd hk ht
      | cons f r => obtain ⟨-, -, -, -, h, -⟩ := hR.top hk; exact h u e
  intro u w
  simp [step, acquire, this]

/-- C79, nested expressions: with a recursive mutex a thread that has the stream can begin another expression, and one can begin whenever no other thread
has the stream. -/
theorem nests {ls : List Label} {s : State} {es : List Event} (h : run (step true) init ls = some (s, es)) {t : Nat}
    (ho : ∀ u, u ≠ t → s.stk u = []) (w : List Char) : (step true s (.start t w)).isSome ∧ (step true s (.hold t)).isSome := by
  obtain ⟨σ, hR⟩ := reach_R h
  have : s.owner = none ∨ ∃ d, s.owner = some (t, d) := by
    rcases σ with _ | ⟨u, gs⟩
    · exact Or.inl hR.1
    · obtain ⟨h1, h2, h3, h4, h5⟩ := hR
      by_cases e : u = t
      · exact Or.inr ⟨_, e ▸ h1⟩
      · rw [ho u e] at h4; exact absurd h4.symm h2
  rcases this with h | ⟨d, h⟩ <;> simp [step, acquire, h]

/-- Why the parameter is called `RecursiveMutex`: with another mutex a nested expression waits for its own thread, and with it waits everybody, for ever: nobody
can begin before that thread goes on. -/
theorem needs_recursive {ls : List Label} {s : State} {es : List Event} (h : run (step false) init ls = some (s, es)) {t : Nat} (ht : s.stk t ≠ [])
    (u : Nat) (w : List Char) : step false s (.start u w) = none ∧ step false s (.hold u) = none := by
  obtain ⟨σ, hR⟩ := reach_R h
  cases hk : s.stk t with
  | nil => exact absurd hk ht
  | cons f r =>
    obtain ⟨gs, -, h1, -⟩ := hR.top hk
    simp [step, acquire, h1]

/-- Two threads: the one writes "ab", holds the stream while it writes more within a nested expression, the other one has to wait and then writes "x". -/
def demo : List Label :=
  [.start 0 ['a', 'b'], .put 0, .start 0 ['n'], .put 0, .ret 0, .fin 0, .put 0, .ret 0, .insert 0 ['c'], .put 0, .ret 0, .fin 0,
   .start 1 ['x'], .put 1, .throw 1 false, .hold 0, .insert 0 ['d', 'e'], .put 0, .throw 0 true, .fin 0]

example : (run (step true) init demo).map (fun r => written r.2) = some [(0, 'a'), (0, 'n'), (0, 'b'), (0, 'c'), (1, 'x'), (0, 'd')] := by decide +kernel
example : (run (step true) init (demo.take 4 ++ [.start 1 ['x']])).isNone := by decide +kernel
/-- The hypotheses of `not_interleaved` are met by the whole of the first expression, nested one included. -/
example : ∃ s q, run (step true) init (demo.take 11) = some (s, [] ++ .began 0 :: q) ∧ written q = [(0, 'a'), (0, 'n'), (0, 'b'), (0, 'c')]
    ∧ begun 0 q = 1 ∧ gone 0 q = 1 := ⟨_, _, rfl, by decide +kernel⟩
/-- Those of `text_is_whole`. -/
example : ∃ s p q r, run (step true) init (demo.take 11) = some (s, p ++ .arg 0 ['c'] :: (q ++ .argDone 0 :: r)) ∧ written q = [(0, 'c')] :=
  ⟨_, [.began 0, .arg 0 ['a', 'b'], .put 0 'a', .began 0, .arg 0 ['n'], .put 0 'n', .argDone 0, .ended 0, .put 0 'b', .argDone 0], [.put 0 'c'], [], rfl, rfl⟩
example : ∃ s es, run (step false) init [.start 0 ['a']] = some (s, es) ∧ s.stk 0 ≠ [] := ⟨_, _, rfl, by decide⟩

end Verif.Stream
