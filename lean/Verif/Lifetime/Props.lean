import Verif.Lifetime.Told
/-!
# C71: the data of a thread live exactly as long as they are needed

`P` is one of POSIX, Windows and Windows Runtime; `K` is how often the system calls the destructor of a key when a thread ends (POSIX); `k` is the number of threads not
created by the library. Every theorem is about every run, of any length, with any number of threads, references and data.
-/

set_option linter.unusedSimpArgs false
set_option linter.unusedVariables false

namespace Verif.Lifetime

theorem follow {P : Plat} {K k : Nat} {ls : List Label} {s : State} {es : List Event} (h : run (step P K) (init k) ls = some (s, es)) :
    ∃ σ, specState next start es = some σ ∧ Inv P s σ := by
  have ha : Accepts next start es := simulation (Inv P) (fun _ _ _ _ _ hR hs => sim hR hs) (inv_init P k) h
  obtain ⟨σ, hσ⟩ := ha.specState_isSome (clientOk _ _)
  exact ⟨σ, hσ, simulation_state (Inv P) (fun _ _ _ _ _ hR hs => sim hR hs) (inv_init P k) h hσ⟩

/-- The specification follows every history up to any point of it. -/
theorem follow_prefix {P : Plat} {K k : Nat} {ls : List Label} {s : State} {es es₁ es₂ : List Event} (h : run (step P K) (init k) ls = some (s, es))
    (he : es = es₁ ++ es₂) : ∃ σ, specState next start es₁ = some σ ∧ ∃ σ', specState next σ es₂ = some σ' := by
  obtain ⟨σ', hσ, -⟩ := follow h
  rw [he, specState_append] at hσ
  cases h1 : specState next start es₁ with
  | none => simp [h1] at hσ
  | some σ => exact ⟨σ, rfl, σ', by simpa [h1] using hσ⟩

/-- Every history obeys the rules of the specification. -/
theorem lives_rightly {P : Plat} {K k : Nat} {ls : List Label} {s : State} {es : List Event} (h : run (step P K) (init k) ls = some (s, es)) :
    Accepts next start es :=
  simulation (Inv P) (fun _ _ _ _ _ hR hs => sim hR hs) (inv_init P k) h

/-- A thread created and detached before it has begun to run, another one joined (its `join` returns when the thread is gone), a third one refused: for each platform. -/
def story : Plat → List Label
  | .posix => [.make 0, .arm 0, .spawn 0 true 0, .copy 0 5, .drop 0 0, .drop 0 5, .go 0, .go 0, .use 1, .self 1 7, .ret 0, .go 0, .drop 1 7, .go 0, .go 0, .delete 0, .finish 1,
      .make 1, .arm 1, .spawn 1 false 0, .drop 0 1, .delete 1,
      .make 2, .arm 2, .spawn 2 true 0, .go 2, .go 2, .ret 2, .go 2, .go 2, .go 2, .finish 2, .drop 0 2, .delete 2,
      .use 0, .self 0 8, .exit 0, .go 3, .finish 0, .drop 2 8, .delete 3]
  | .windows => [.make 0, .spawn 0 true 0, .arm 0, .resume 0, .copy 0 5, .drop 0 0, .drop 0 5, .go 0, .use 1, .ret 0, .go 0, .go 0, .delete 0, .finish 1,
      .make 1, .spawn 1 false 0, .drop 0 1, .delete 1,
      .make 2, .spawn 2 true 0, .arm 2, .resume 2, .go 2, .ret 2, .go 2, .go 2, .finish 2, .drop 0 2, .delete 2,
      .use 0, .exit 0, .go 3, .go 3, .delete 3, .finish 0]
  | .winrt => [.make 0, .arm 0, .spawn 0 true 0, .copy 0 5, .drop 0 0, .drop 0 5, .go 0, .use 1, .ret 0, .go 0, .go 0, .delete 0, .finish 1,
      .make 1, .arm 1, .spawn 1 false 0, .drop 0 1, .delete 1,
      .make 2, .arm 2, .spawn 2 true 0, .go 2, .ret 2, .go 2, .go 2, .finish 2, .drop 0 2, .delete 2,
      .use 0, .exit 0, .go 3, .go 3, .delete 3, .finish 0]

/-- The story happens; all the data are destroyed, each where its last reference is given up. -/
example : ∀ P ∈ [Plat.posix, Plat.windows, Plat.winrt], ((run (step P 4) (init 1) (story P)).map fun r => r.2.filter fun e => match e with | .destroyed _ _ => true | _ => false) =
    some (if P = .posix then [.destroyed 1 0, .destroyed 0 1, .destroyed 0 2, .destroyed 2 3] else [.destroyed 1 0, .destroyed 0 1, .destroyed 0 2, .destroyed 0 3]) := by
  decide +kernel

/-- Data are not used after they have been destroyed, nor once they are about to be: neither by the constructor that made them, nor by the new thread, however late it begins to run, nor by a
call on an object or a `thread::id`, nor by a thread that asks for its own data. -/
theorem never_stale {P : Plat} {K k : Nat} {ls : List Label} {s : State} {es : List Event} (h : run (step P K) (init k) ls = some (s, es)) (d : Nat) :
    .stale d ∉ es := by
  obtain ⟨σ, hσ, -⟩ := follow h
  exact (told hσ).stale d

/-- Data are destroyed at most once. -/
theorem destroyed_once {P : Plat} {K k : Nat} {ls : List Label} {s : State} {es es₁ es₂ : List Event} {t d : Nat} (h : run (step P K) (init k) ls = some (s, es))
    (he : es = es₁ ++ .destroyed t d :: es₂) : ∀ u, .destroyed u d ∉ es₁ ∧ .destroyed u d ∉ es₂ := by
  intro u
  have key : ∀ (a b : List Event) (t' : Nat), es = a ++ .destroyed t' d :: b → ∀ u, .destroyed u d ∉ a := by
    intro a b t' e u hm
    obtain ⟨σ, hσ, σ', hσ'⟩ := follow_prefix h e
    have := (told hσ).destroyed u d hm
    simp only [specState, next, this.2.1] at hσ'
    simp at hσ'
  refine ⟨key es₁ es₂ t he u, fun hm => ?_⟩
  obtain ⟨a, b, hab⟩ := List.append_of_mem hm
  have := key (es₁ ++ .destroyed t d :: a) b u (by rw [he, hab]; simp) t
  simp at this

/-- Data are destroyed only when their thread has finished with them, or the system has refused to create a thread for them; if the function has been called, then it has returned;
the object whose constructor made them has been given up, and so has every other reference. -/
theorem destroyed_unused {P : Plat} {K k : Nat} {ls : List Label} {s : State} {es es₁ es₂ : List Event} {t d : Nat} (h : run (step P K) (init k) ls = some (s, es))
    (he : es = es₁ ++ .destroyed t d :: es₂) :
    ((∃ u, .over u d ∈ es₁) ∨ .refused d ∈ es₁) ∧ (∀ u, .began u d ∈ es₁ → .ended d ∈ es₁) ∧ (∀ o, .made o d ∈ es₁ → .dropped o ∈ es₁) ∧
    ∃ σ, specState next start es₁ = some σ ∧ ∀ r ∈ σ.refs, r.2 ≠ d := by
  obtain ⟨σ, hσ, σ', hσ'⟩ := follow_prefix h he
  have T := told hσ
  by_cases hg : d < σ.n ∧ σ.dead d = false ∧ σ.use d = .none ∧ σ.refs.all (fun r => r.2 != d)
  · have hr : ∀ r ∈ σ.refs, r.2 ≠ d := by simpa using hg.2.2.2
    refine ⟨T.idle d hg.1 hg.2.2.1, fun u hb => ?_, fun o hm => ?_, σ, hσ, hr⟩
    · rcases (T.began u d hb).2.2 with h1 | h1
      · simp [hg.2.2.1] at h1
      · exact h1
    · rcases T.made o d hm with h1 | h1
      · exact absurd rfl (hr _ h1)
      · exact h1
  · simp only [specState, next, if_neg hg] at hσ'
    cases hσ'

/-- The function is called at most once. -/
theorem called_once {P : Plat} {K k : Nat} {ls : List Label} {s : State} {es es₁ es₂ : List Event} {t d : Nat} (h : run (step P K) (init k) ls = some (s, es))
    (he : es = es₁ ++ .began t d :: es₂) : ∀ u, .began u d ∉ es₁ := by
  intro u hm
  obtain ⟨σ, hσ, σ', hσ'⟩ := follow_prefix h he
  have := (told hσ).began u d hm
  simp [specState, next, this.2.1] at hσ'

/-- Nothing is kept: as soon as the thread has finished with the data and nobody refers to them, they have been destroyed, or the thread that gave up the last reference
destroys them next. -/
theorem destroyed_when_unused {P : Plat} {K k : Nat} {ls : List Label} {s : State} {es : List Event} {σ : Spec} {d : Nat} (h : run (step P K) (init k) ls = some (s, es))
    (hσ : specState next start es = some σ) (hd : d < σ.n) (hu : σ.use d = .none) (hr : ∀ r ∈ σ.refs, r.2 ≠ d) :
    (∃ t, .destroyed t d ∈ es) ∨ ∃ t s', step P K s (.delete d) = some (s', [.destroyed t d]) := by
  have hI : Inv P s σ := simulation_state (Inv P) (fun _ _ _ _ _ hR hs => sim hR hs) (inv_init P k) h hσ
  have hd' : d < s.nr := hI.n ▸ hd
  have L := hI.loc d hd'
  have hz : nref s.refs d = 0 := by
    rw [nref, List.countP_eq_zero]
    intro r hm
    have := hr r (hI.refs ▸ hm)
    simpa using this
  have hst : (s.dat d).stage = .over ∨ (s.dat d).stage = .refused := by
    have := L.use
    rw [hu] at this
    cases hx : (s.dat d).stage <;> simp [useOf, hx] at this ⊢
    all_goals (split at this <;> cases this)
  have hc : (s.dat d).count = 0 := by
    have h1 := L.count
    have h2 := L.self
    rcases hst with e | e <;> rw [e] at h1 h2 <;> cases P <;> simp [selfOf, hold] at h1 h2 <;> simp [h1, h2, hz]
  rcases L.fine with ⟨a, b, c⟩ | ⟨a, b, c⟩ | ⟨a, b, c⟩
  · omega
  · obtain ⟨t, ht⟩ := Option.isSome_iff_exists.mp b
    exact Or.inr ⟨t, setRec s d { s.dat d with alive := false, dying := none }, by simp only [step, hd', if_true, ht, a]⟩
  · have hdd : σ.dead d = true := by rw [L.dead, a]; rfl
    exact Or.inl (died hσ hdd)

/-- The hypotheses are met: the thread is over, the object has been given up. -/
example : ∃ s es σ, run (step .posix 4) (init 1) [.make 0, .arm 0, .spawn 0 true 0, .go 0, .go 0, .drop 0 0, .ret 0, .go 0, .go 0, .go 0] = some (s, es) ∧
    specState next start es = some σ ∧ 0 < σ.n ∧ σ.use 0 = .none ∧ ∀ r ∈ σ.refs, r.2 ≠ 0 := by
  refine ⟨_, _, _, rfl, rfl, by decide, by decide, by decide⟩

theorem dn_run {P : Plat} {K k : Nat} {ls : List Label} {s : State} {es : List Event} (h : run (step P K) (init k) ls = some (s, es)) :
    (∀ t, s.done t = true → Dn s t) ∧ ∀ t, .gone t ∈ es → s.done t = true := by
  have key := run_inv_hist (step := step P K) (fun s hist => (∃ σ, specState next start hist = some σ ∧ Inv P s σ) ∧ (∀ t, s.done t = true → Dn s t) ∧ ∀ t, .gone t ∈ hist → s.done t = true)
    (hist := []) ?_ ⟨⟨start, rfl, inv_init P k⟩, by simp [init], by simp⟩ h
  · simpa using key.2
  · intro s l s' hist es hi hs
    obtain ⟨⟨σ, hσ, hI⟩, hd, hg⟩ := hi
    refine ⟨?_, dn_step hI hd hs, ?_⟩
    · have hf := sim hI hs
      have ha : Accepts next start (hist ++ es) := by
        have h1 : Accepts next σ es := by simpa using hf.accepts_append (es' := []) (fun _ _ => trivial)
        exact accepts_append hσ h1
      obtain ⟨σ', hσ'⟩ := ha.specState_isSome (clientOk _ _)
      rw [specState_append, hσ] at hσ'
      obtain ⟨m, hm, he⟩ := hf.specState_append (es' := []) (σ' := σ') (by simpa using hσ')
      simp only [specState, Option.some.injEq] at he
      subst he
      exact ⟨m, by rw [specState_append, hσ]; exact hσ', hm⟩
    · intro t ht
      simp only [List.mem_append] at ht
      rcases ht with ht | ht
      · exact (step_ends hs).2.1 t (hg t ht)
      · exact (step_ends hs).2.2.1 t ht

/-- A thread that is gone has nothing to do with any data any more: neither in the function, nor in the exit functions, nor as its own data. -/
theorem gone_finished {P : Plat} {K k : Nat} {ls : List Label} {s : State} {es : List Event} {σ : Spec} {t d : Nat} (h : run (step P K) (init k) ls = some (s, es))
    (hσ : specState next start es = some σ) (hg : .gone t ∈ es) (hd : d < σ.n) : σ.use d ≠ .running t ∧ σ.use d ≠ .ending t ∧ σ.use d ≠ .kept t := by
  have hI : Inv P s σ := simulation_state (Inv P) (fun _ _ _ _ _ hR hs => sim hR hs) (inv_init P k) h hσ
  obtain ⟨h1, h2⟩ := dn_run h
  have D := h1 t (h2 t hg)
  have hb := unused_by hI D.ret D.xc D.cur d hd
  refine ⟨?_, ?_, ?_⟩ <;> intro e <;> simp [e, Use.by] at hb

example : ∃ s es σ, run (step .windows 4) (init 1) [.make 0, .spawn 0 true 0, .arm 0, .resume 0, .go 0, .ret 0, .go 0, .go 0, .finish 1] = some (s, es) ∧
    specState next start es = some σ ∧ .gone 1 ∈ es ∧ 0 < σ.n := by
  refine ⟨_, _, _, rfl, rfl, by decide, by decide⟩

/-- When every reference has been given up and every thread is gone, every piece of data has been destroyed, or is destroyed next, or a thread came to its end with it. -/
theorem nothing_left {P : Plat} {K k : Nat} {ls : List Label} {s : State} {es : List Event} {σ : Spec} {d : Nat} (h : run (step P K) (init k) ls = some (s, es))
    (hσ : specState next start es = some σ) (hd : d < σ.n) (hr : σ.refs = [])
    (hb : σ.use d ≠ .starting) (ht : ∀ t, σ.use d = .running t ∨ σ.use d = .ending t ∨ σ.use d = .kept t → .gone t ∈ es) :
    (∃ t, .destroyed t d ∈ es) ∨ (∃ t s', step P K s (.delete d) = some (s', [.destroyed t d])) ∨ σ.use d = .lost := by
  cases hu : σ.use d with
  | starting => exact absurd hu hb
  | running t => exact absurd hu (gone_finished h hσ (ht t (Or.inl hu)) hd).1
  | ending t => exact absurd hu (gone_finished h hσ (ht t (Or.inr (Or.inl hu))) hd).2.1
  | kept t => exact absurd hu (gone_finished h hσ (ht t (Or.inr (Or.inr hu))) hd).2.2
  | none =>
    rcases destroyed_when_unused h hσ hd hu (by simp [hr]) with h1 | h1
    · exact Or.inl h1
    · exact Or.inr (Or.inl h1)
  | lost => exact Or.inr (Or.inr rfl)

/-- At the end of the story everything has been destroyed. -/
example : ∃ s es σ, run (step .posix 4) (init 1) (story .posix) = some (s, es) ∧ specState next start es = some σ ∧ σ.n = 4 ∧ σ.refs = [] ∧
    (∀ d < 4, σ.use d = .none) ∧ ∀ d < 4, σ.dead d = true := by
  refine ⟨_, _, _, rfl, rfl, by decide, by decide, by decide, by decide⟩

/-! ## Threads that come to their end with data -/

/-- On Windows no thread comes to its end with data of its own. -/
theorem windows_loses_nothing {P : Plat} {K k : Nat} {ls : List Label} {s : State} {es : List Event} (hP : P ≠ .posix) (h : run (step P K) (init k) ls = some (s, es)) (t d : Nat) :
    .abandoned t d ∉ es := by
  have key := run_inv_hist (step := step P K) (fun _ hist => .abandoned t d ∉ hist) (hist := []) ?_ (by simp) h
  · simpa using key
  · intro s l s' hist es hi hs
    simp only [List.mem_append, not_or]
    exact ⟨hi, fun hm => hP ((step_ends hs).2.2.2.1 t d hm).1⟩

/-- The calls of the destructor of the key for thread `t`. -/
def calls (t : Nat) (es : List Event) : Nat := (es.filter (fun e => match e with | .round u _ => u == t | _ => false)).length

theorem calls_append (t : Nat) (a b : List Event) : calls t (a ++ b) = calls t a + calls t b := by simp [calls]

/-- On POSIX systems a thread comes to its end with data of its own only after the system has called the destructor of the key for it `K` times, each time because code run by the cleanup functions has
made new data for the thread. -/
theorem lost_after_rounds {P : Plat} {K k : Nat} {ls : List Label} {s : State} {es es₁ es₂ : List Event} {t d : Nat} (h : run (step P K) (init k) ls = some (s, es))
    (he : es = es₁ ++ .abandoned t d :: es₂) : K ≤ calls t es₁ := by
  have key := run_inv_hist (step := step P K) (fun s hist => (∀ t, s.rounds t ≤ calls t hist) ∧ ∀ a b t d, hist = a ++ .abandoned t d :: b → K ≤ calls t a)
    (hist := []) ?_ ⟨by simp [init], by simp⟩ h
  · exact key.2 es₁ es₂ t d (by simpa using he)
  · intro s l s' hist es hi hs
    obtain ⟨hr, ha⟩ := hi
    obtain ⟨h1, -, -, h4, h5⟩ := step_ends hs
    refine ⟨fun t => ?_, fun a b t d e => ?_⟩
    · rw [calls_append]
      rcases h5 with h5 | ⟨u, d, rfl, h5⟩
      · rw [h5]; have := hr t; omega
      · rw [h5]
        by_cases e : t = u
        · subst e; have := hr t; simp [calls] at this ⊢; omega
        · rw [upd_ne e]; have := hr t; omega
    · rcases es with _ | ⟨x, es⟩
      · exact ha a b t d (by simpa using e)
      · have : es = [] := by cases es with | nil => rfl | cons => simp at h1
        subst this
        rcases List.eq_nil_or_concat b with rfl | ⟨b', y, rfl⟩
        · have := List.append_inj' (t₁ := [x]) (t₂ := [.abandoned t d]) e rfl
          obtain ⟨rfl, e2⟩ := this
          have e3 : x = .abandoned t d := by simpa using e2
          have := (h4 t d (by simp [e3])).2
          have := hr t
          omega
        · have e' : hist ++ [x] = (a ++ .abandoned t d :: b') ++ [y] := by rw [e]; simp
          exact ha a b' t d (List.append_inj' e' rfl).1

/-- Data a thread came to its end with are never destroyed. -/
theorem lost_for_ever {P : Plat} {K k : Nat} {ls : List Label} {s : State} {es : List Event} {t d : Nat} (h : run (step P K) (init k) ls = some (s, es))
    (hm : .abandoned t d ∈ es) (u : Nat) : .destroyed u d ∉ es := by
  obtain ⟨σ, hσ, -⟩ := follow h
  have T := told hσ
  intro hd
  have h1 := (T.lost t d hm).2
  have h2 := (T.destroyed u d hd).2.2.1
  simp [h1] at h2

/-- This happens (POSIX, `K = 4`): each of the cleanup functions uses a thread-specific pointer, so that the thread needs new data. The data made last are never destroyed. -/
theorem data_may_be_lost : ∃ s es, run (step .posix 4) (init 1) [.use 0, .exit 0, .use 0, .go 0, .delete 0, .exit 0, .use 0, .go 1, .delete 1, .exit 0, .use 0, .go 2, .delete 2,
    .exit 0, .use 0, .go 3, .delete 3, .exit 0, .finish 0] = some (s, es) ∧ .abandoned 0 4 ∈ es ∧ .gone 0 ∈ es := by
  refine ⟨_, _, rfl, by decide, by decide⟩

end Verif.Lifetime
