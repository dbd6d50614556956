import Verif.StateLife.Leak
/-!
# C72: results and functions given to futures live exactly as long as they are needed

Every theorem is about every run, of any length, with any number of promises, futures, continuations and threads, in any interleaving.
-/

set_option linter.unusedSimpArgs false
set_option linter.unusedVariables false

namespace Verif.StateLife

theorem simH {s : State} {l : Label} {s' : State} {es : List Event} {σ : Spec} (h : Inv s σ ∧ Held s) (hs : step s l = some (s', es)) :
    Follows next (fun σ' => Inv s' σ' ∧ Held s') σ es :=
  (sim h.1 hs).and (held h.1 h.2 hs)

theorem held_init : Held init := fun c p pol hc => by simp [init] at hc

theorem follow {ls : List Label} {s : State} {es : List Event} (h : run step init ls = some (s, es)) :
    ∃ σ, specState next start es = some σ ∧ Inv s σ ∧ Held s := by
  have ha : Accepts next start es := simulation Inv (fun _ _ _ _ _ hR hs => sim hR hs) inv_init h
  obtain ⟨σ, hσ⟩ := ha.specState_isSome (clientOk _ _)
  exact ⟨σ, hσ, simulation_state (fun s σ => Inv s σ ∧ Held s) (fun _ _ _ _ _ hR hs => simH hR hs) ⟨inv_init, held_init⟩ h hσ⟩

/-- The specification follows every history up to any point of it. -/
theorem follow_prefix {ls : List Label} {s : State} {es es₁ es₂ : List Event} (h : run step init ls = some (s, es))
    (he : es = es₁ ++ es₂) : ∃ σ, specState next start es₁ = some σ ∧ ∃ σ', specState next σ es₂ = some σ' := by
  obtain ⟨σ', hσ, -⟩ := follow h
  rw [he, specState_append] at hσ
  cases h1 : specState next start es₁ with
  | none => simp [h1] at hσ
  | some σ => exact ⟨σ, rfl, σ', by simpa [h1] using hσ⟩

/-- Every history obeys the rules of the specification. -/
theorem lives_rightly {ls : List Label} {s : State} {es : List Event} (h : run step init ls = some (s, es)) : Accepts next start es :=
  simulation Inv (fun _ _ _ _ _ hR hs => sim hR hs) inv_init h

/-- A promise with two continuations, one in another thread and one deferred, `then` again on the first of them; the future of the deferred one is waited for; every future is dropped, the first
function keeps the future it has been given. -/
def story : List Label :=
  [.promise, .getFuture 0 0, .copy 0 1, .thn 0 2 .later true, .thn 1 3 .deferred true, .thn 2 4 .sync false, .drop 4, .drop 0, .drop 1, .wait 3, .set 0, .leave 0,
   .launch 1 none, .launch 2 none, .leaveCont 0, .run 1 (some 9), .ret 1, .launch 3 none, .ret 3, .leaveCont 3, .leaveCont 1, .proceed 2 none, .ret 2, .leaveCont 2,
   .free 3, .free 1, .drop 3, .free 2, .drop 9, .free 0]

example : (run step init story).map (·.2) = some
    [.made 0 .promise, .got 0 0, .got 1 0, .made 1 (.cont 0 .later), .got 2 1, .made 2 (.cont 0 .deferred), .got 3 2, .made 3 (.cont 1 .sync), .dropped 2, .got 4 3, .dropped 4, .dropped 0,
     .dropped 1, .started 2, .ready 0, .left 0, .began 1, .got 9 0, .ready 1, .began 3, .ready 3, .began 2, .ready 2, .destroyed 3, .destroyed 1, .dropped 3, .destroyed 2, .dropped 9,
     .destroyed 0] := by decide +kernel

/-- A result is not used after it has been destroyed: neither through a future, a promise or a task, nor by a thread or an executor that has its function, nor by `then` functions that wait
for it. -/
theorem never_stale {ls : List Label} {s : State} {es : List Event} (h : run step init ls = some (s, es)) (i : Nat) : .stale i ∉ es := by
  obtain ⟨σ, hσ, -⟩ := follow h
  exact (told hσ).stale i

/-- A result is destroyed at most once. -/
theorem destroyed_once {ls : List Label} {s : State} {es es₁ es₂ : List Event} {i : Nat} (h : run step init ls = some (s, es))
    (he : es = es₁ ++ .destroyed i :: es₂) : .destroyed i ∉ es₁ ∧ .destroyed i ∉ es₂ := by
  have key : ∀ a b : List Event, es = a ++ .destroyed i :: b → .destroyed i ∉ a := by
    intro a b e hm
    obtain ⟨σ, hσ, σ', hσ'⟩ := follow_prefix h e
    have := ((told hσ).dead i).mp hm
    simp [specState, next, this] at hσ'
  refine ⟨key es₁ es₂ he, fun hm => ?_⟩
  obtain ⟨a, b, hab⟩ := List.append_of_mem hm
  have := key (es₁ ++ .destroyed i :: a) b (by rw [he, hab]; simp)
  simp at this

/-- A result is destroyed only when every future for it has been dropped and its promise or task too; when its function, if it has been called, has finished; when its function has been called,
or given up by the executor, if it is one that is called in any case; and when every function given to `then` on it has been called, or given up, or destroyed. -/
theorem destroyed_unneeded {ls : List Label} {s : State} {es es₁ es₂ : List Event} {i : Nat} (h : run step init ls = some (s, es))
    (he : es = es₁ ++ .destroyed i :: es₂) :
    (∀ o, .got o i ∈ es₁ → .dropped o ∈ es₁) ∧ (.made i .promise ∈ es₁ → .left i ∈ es₁) ∧ (.began i ∈ es₁ → .ready i ∈ es₁) ∧
    (∀ k : Kind, k.eager = true → .made i k ∈ es₁ → .began i ∈ es₁ ∨ .discarded i ∈ es₁) ∧
    ∀ c pol, .made c (.cont i pol) ∈ es₁ → .began c ∈ es₁ ∨ .discarded c ∈ es₁ ∨ .destroyed c ∈ es₁ := by
  obtain ⟨σ, hσ, σ', hσ'⟩ := follow_prefix h he
  have T := told hσ
  by_cases hg : i < σ.n ∧ σ.dead i = false ∧ σ.needed i = false
  · obtain ⟨hi, hd, hn⟩ := hg
    simp only [Spec.needed, Bool.or_eq_false_iff] at hn
    obtain ⟨⟨⟨⟨⟨n1, n2⟩, n3⟩, n4⟩, n5⟩, n6⟩ := hn
    refine ⟨fun o hm => ?_, fun hm => ?_, fun hm => ?_, fun k hk hm => ?_, fun c pol hm => ?_⟩
    · rcases T.got o i hm with g | g
      · simp only [List.any_eq_false, beq_iff_eq] at n1
        exact absurd rfl (n1 _ g)
      · exact g
    · rcases T.prom i hi (T.made i _ hm).2 with g | g
      · rw [n2] at g; cases g
      · exact g
    · rcases (T.began i hm).2 with g | g
      · simp [g] at n4
      · exact (T.ready i).mpr g
    · have := (T.made i k hm).2
      rcases T.eager i hi (by rw [this, hk]) with g | g
      · simp [g, this, hk] at n5
      · exact g
    · obtain ⟨hc, hk⟩ := T.made c _ hm
      simp only [List.any_eq_false, List.mem_range] at n6
      have := n6 c hc
      rw [hk] at this
      simp only [Kind.of, beq_self_eq_true, Bool.and_true, Bool.and_eq_true, Bool.not_eq_true', Bool.or_eq_true, beq_iff_eq] at this
      cases hdc : σ.dead c with
      | true => exact Or.inr (Or.inr ((T.dead c).mpr hdc))
      | false =>
        cases hst : σ.st c with
        | waiting => simp [hdc, hst] at this
        | started => simp [hdc, hst] at this
        | running => exact Or.inl (T.ran c hc (Or.inl hst) (by rw [hk]; simp))
        | ready => exact Or.inl (T.ran c hc (Or.inr hst) (by rw [hk]; simp))
        | lost => exact Or.inr (Or.inl ((T.disc c).mpr hst))
  · simp only [specState, next, if_neg hg] at hσ'
    cases hσ'

/-- A function is called at most once, and one given to `then` only when the result it waits for is ready. -/
theorem called_once {ls : List Label} {s : State} {es es₁ es₂ : List Event} {i : Nat} (h : run step init ls = some (s, es))
    (he : es = es₁ ++ .began i :: es₂) : .began i ∉ es₁ ∧ ∀ p pol, .made i (.cont p pol) ∈ es₁ → .ready p ∈ es₁ := by
  obtain ⟨σ, hσ, σ', hσ'⟩ := follow_prefix h he
  have T := told hσ
  by_cases hg : i < σ.n ∧ σ.dead i = false ∧ σ.parentReady i = true ∧ (σ.st i = .waiting ∧ (σ.kind i).eager = true ∨ σ.st i = .started)
  · refine ⟨fun hm => ?_, fun p pol hm => ?_⟩
    · rcases (T.began i hm).2 with g | g <;> simp [g] at hg
    · have := hg.2.2.1
      simp only [Spec.parentReady, (T.made i _ hm).2, beq_iff_eq] at this
      exact (T.ready p).mpr this
  · simp only [specState, next, if_neg hg] at hσ'
    cases hσ'

/-- A function given to `async`, or to `then` with a policy other than `deferred`, is called although no future for its result may be left: when nothing more happens by itself, and the result it
waits for is ready, it has been called, or the executor has given it up. -/
theorem called_even_if_dropped {ls : List Label} {s : State} {es : List Event} {i : Nat} {k : Kind} (h : run step init ls = some (s, es)) (hm : .made i k ∈ es) (hk : k.eager = true)
    (hp : ∀ p pol, k = .cont p pol → .ready p ∈ es) (hq : ∀ l : Label, l.internal = true → step s l = none) : .began i ∈ es ∨ .discarded i ∈ es := by
  obtain ⟨σ, hσ, hI, hH⟩ := follow h
  have T := told hσ
  obtain ⟨hi, hki⟩ := T.made i k hm
  rcases T.eager i hi (by rw [hki, hk]) with g | g
  · exfalso
    have hi' : i < s.n := hI.n ▸ hi
    have hkn : (s.node i).kind = k := by rw [← hI.kind i hi', hki]
    have hal : (s.node i).alive = true := by
      cases e : (s.node i).alive with
      | true => rfl
      | false =>
        have := hI.dead i hi'
        rw [e] at this
        exact absurd g (T.done i (by simpa using this) (by rw [hki, hk]))
    rw [hI.st i hi'] at g
    have hnq := quiet_queued hI hq hi'
    have hid : (s.node i).ph = .idle := by
      cases e : (s.node i).ph <;> simp_all [phase]
    cases k with
    | promise => simp [Kind.eager] at hk
    | deferred => simp [Kind.eager] at hk
    | async => exact hI.good.async i hi' hkn hid
    | cont p pol =>
      have hpol : pol ≠ .deferred := by intro e; subst e; simp [Kind.eager] at hk
      have hpi := hI.good.kind i p pol hi' hkn
      rcases hI.good.idle i p pol hi' hal hkn hpol hid with g' | g'
      · rw [quiet_vec hI hq hi'] at g'; cases g'
      · have h1 := (hI.good.cont p i (by omega) g').2.2.2.2.1
        have h2 := (T.ready p).mp (hp p pol rfl)
        rw [hI.st p (by omega)] at h2
        cases e : (s.node p).ph <;> simp_all [phase]
  · exact g

/-- `async` and `then` with the futures dropped at once: both functions are called, and all is destroyed. -/
example : (run step init [.async 0, .thn 0 1 .later false, .drop 1, .run 0 none, .ret 0, .launch 1 none, .leaveCont 0, .run 1 none, .ret 1, .leaveCont 1, .free 1, .free 0]).map (·.2) = some
    [.made 0 .async, .got 0 0, .made 1 (.cont 0 .later), .dropped 0, .got 1 1, .dropped 1, .began 0, .ready 0, .began 1, .ready 1, .destroyed 1, .destroyed 0] := by decide +kernel

/-- Nothing is left when no future, promise and task is left and nothing more happens by itself, with one exception: a result that will never be ready, because it is deferred and nobody has
waited for it, or because the executor has given up its function, and a result of `then` that waits for it. -/
theorem nothing_left_partial {ls : List Label} {s : State} {es : List Event} {σ : Spec} (h : run step init ls = some (s, es)) (hσ : specState next start es = some σ)
    (hr : σ.refs = []) (hown : ∀ i, i < σ.n → σ.own i = false) (hq : ∀ l : Label, l.internal = true → step s l = none) :
    (∀ i, i < σ.n → σ.dead i = true) ∨
    ∃ i c pol, c < σ.n ∧ i < σ.n ∧ σ.dead i = false ∧ σ.dead c = false ∧ σ.kind c = .cont i pol ∧ (σ.st c = .waiting ∨ σ.st c = .started) ∧
      ((σ.kind i).lazy = true ∧ σ.st i = .waiting ∨ σ.st i = .lost) := by
  obtain ⟨σ', hσ', hI, -⟩ := follow h
  rw [hσ] at hσ'; cases hσ'
  have hown' : ∀ j, j < s.n → (s.node j).own = false := fun j hj => by rw [← hI.own j hj]; exact hown j (hI.n ▸ hj)
  have hr' : s.refs = [] := hI.refs ▸ hr
  by_cases hw : ∃ i c, Waits s i c
  · obtain ⟨i, c, w⟩ := hw
    obtain ⟨i, c, w, ha, hi, hc⟩ := waits_cause hI hq i hown' w
    obtain ⟨pol, hk⟩ := w.kind
    refine Or.inr ⟨i, c, pol, hI.n ▸ w.lt, hI.n ▸ hi, by rw [hI.dead i hi, ha]; rfl, by rw [hI.dead c w.lt, w.alive]; rfl, by rw [hI.kind c w.lt, hk], ?_, ?_⟩
    · rw [hI.st c w.lt]; rcases w.ph with e | e <;> simp [e, phase]
    · rw [hI.st i hi, hI.kind i hi]; rcases hc with ⟨e1, e2⟩ | e <;> simp [*, phase]
  · refine Or.inl fun i hi => ?_
    have hi' : i < s.n := hI.n ▸ hi
    rw [hI.dead i hi', quiet_dead hI hq hr' hown' hw (s.n - i) i hi' (Nat.le_refl _)]; rfl

/-- If every deferred function has been called and no executor has given up a function, then every result is destroyed as soon as no future, promise and task is left and nothing more happens by
itself. -/
theorem nothing_left {ls : List Label} {s : State} {es : List Event} (h : run step init ls = some (s, es)) (hd : ∀ i k, k.lazy = true → .made i k ∈ es → .began i ∈ es)
    (hx : ∀ i, .discarded i ∉ es) (hr : s.refs = []) (hl : ∀ i, .made i .promise ∈ es → .left i ∈ es) (hq : ∀ l : Label, l.internal = true → step s l = none) :
    ∀ i k, .made i k ∈ es → .destroyed i ∈ es := by
  obtain ⟨σ, hσ, hI, -⟩ := follow h
  have T := told hσ
  have hmade : ∀ i, i < σ.n → .made i (σ.kind i) ∈ es := by
    refine permitted (Q := fun h σ => ∀ i, i < σ.n → .made i (σ.kind i) ∈ h) (by simp [start]) ?_ hσ
    intro h σ e σ' q hn
    cases e <;> simp only [next] at hn <;> (try split at hn) <;> cases hn <;> rename_i hg <;> simp only [List.mem_append, List.mem_singleton, upd, reduceCtorEq, or_false]
    all_goals first | assumption | skip
    grind
  have hleft : ∀ i, .left i ∈ es → σ.own i = false := by
    refine (permitted (Q := fun h σ => (∀ i, .left i ∈ h → σ.own i = false) ∧ (∀ i, .left i ∈ h → i < σ.n)) ⟨by simp, by simp⟩ ?_ hσ).1
    intro h σ e σ' q hn
    obtain ⟨q1, q2⟩ := q
    cases e <;> simp only [next] at hn <;> (try split at hn) <;> cases hn <;> rename_i hg <;> simp only [List.mem_append, List.mem_singleton, upd, reduceCtorEq, or_false]
    all_goals first | exact ⟨q1, q2⟩ | skip
    all_goals grind
  have hown : ∀ i, i < σ.n → σ.own i = false := by
    intro i hi
    cases e : σ.own i with
    | false => rfl
    | true =>
      have := hmade i hi
      rw [T.own i hi e] at this
      rw [hleft i (hl i this)] at e; exact e.symm
  rcases nothing_left_partial h hσ (by rw [hI.refs, hr]) hown hq with g | ⟨i, c, pol, g1, g2, g3, g4, g5, g6, g7⟩
  · exact fun i k hm => (T.dead i).mpr (g i (T.made i k hm).1)
  · exfalso
    rcases g7 with ⟨g7, g8⟩ | g7
    · rcases (T.began i (hd i _ g7 (hmade i g2))).2 with g | g <;> simp [g8] at g
    · exact hx i ((T.disc i).mpr g7)

theorem quiet_of {s : State} (h : ∀ c, c < s.n → (s.node c).alive = false ∧ (s.node c).vec = false ∧ (s.node c).frames = 0 ∧ (s.node c).ph = .over) :
    ∀ l : Label, l.internal = true → step s l = none := by
  intro l hl
  cases l <;> simp only [Label.internal, Bool.false_eq_true] at hl <;> simp only [step] <;> rw [if_neg] <;> intro g <;> have := h _ g.1 <;> simp_all

/-- The hypotheses of `nothing_left` are met after `story`. -/
example : ∃ s es, run step init story = some (s, es) ∧ s.n = 4 ∧ s.refs = [] ∧ (∀ l : Label, l.internal = true → step s l = none) ∧ .began 2 ∈ es ∧ .left 0 ∈ es :=
  ⟨_, _, rfl, rfl, rfl, quiet_of (by decide +kernel), by decide +kernel, by decide +kernel⟩

/-- What `nothing_left_partial` excepts is kept for ever: once no future refers to a result that will never be ready, nor to anything that stems from it by `then`, neither it nor the result of
`then` that waits for it is destroyed, whatever happens later; and neither of the two functions is called. -/
theorem leak_is_for_ever {ls ls' : List Label} {s s' : State} {es es' : List Event} {σ : Spec} {i c : Nat} {pol : Pol} (h : run step init ls = some (s, es))
    (hσ : specState next start es = some σ) (hc : c < σ.n) (hdc : σ.dead c = false) (hk : σ.kind c = .cont i pol)
    (hi : (σ.kind i).lazy = true ∧ σ.st i = .waiting ∨ σ.st i = .lost)
    (hst : ∀ d, d < σ.n → Stems σ.kind i d → (d ≠ i → σ.st d = .waiting) ∧ ∀ r ∈ σ.refs, r.2 ≠ d) (h' : run step s ls' = some (s', es')) :
    (.destroyed i ∉ es ++ es' ∧ .destroyed c ∉ es ++ es') ∧ .began i ∉ es' ∧ .began c ∉ es' := by
  obtain ⟨σ₀, hσ₀, hI, hH⟩ := follow h
  rw [hσ] at hσ₀; cases hσ₀
  have hg := hI.good
  have hc' : c < s.n := hI.n ▸ hc
  have hkc : (s.node c).kind = .cont i pol := by rw [← hI.kind c hc']; exact hk
  have hic := hg.kind c i pol hc' hkc
  have hi' : i < s.n := by omega
  have hac : (s.node c).alive = true := by have := hI.dead c hc'; rw [hdc] at this; simpa using this.symm
  have hroot : (s.node i).kind.lazy = true ∧ (s.node i).ph = .idle ∨ (s.node i).ph = .lost := by
    rw [hI.kind i hi', hI.st i hi'] at hi
    rcases hi with ⟨h1, h2⟩ | h2
    · refine Or.inl ⟨h1, ?_⟩
      cases e : (s.node i).ph <;> simp [e, phase] at h2 ⊢
      exact (Kind.not_both _ ⟨(hg.queued i hi' e).1, h1⟩).elim
    · refine Or.inr ?_
      cases e : (s.node i).ph <;> simp [e, phase] at h2 ⊢
  have hno : ∀ d, d < σ.n → Stems σ.kind i d → (s.node d).ph ≠ .over := by
    intro d hd hs e
    by_cases e' : d = i
    · subst e'; rcases hroot with ⟨-, k⟩ | k <;> simp [k] at e
    · have := (hst d hd hs).1 e'
      rw [hI.st d (hI.n ▸ hd), e] at this; cases this
  have hdown : ∀ d, Stems σ.kind i d → d ≠ i → ∃ p pol, σ.kind d = .cont p pol ∧ Stems σ.kind i p := by
    intro d hs hne
    cases hs with
    | self => exact absurd rfl hne
    | thn h1 h2 => exact ⟨_, _, h1, h2⟩
  have hB : Stuck (fun d => d < σ.n ∧ Stems σ.kind i d) i c s := by
    refine ⟨fun d hd => hI.n ▸ hd.1, ?_, ?_, ?_, ?_, ?_, ⟨⟨hI.n ▸ hi', .self⟩, hroot⟩, ⟨hc', pol, hkc⟩, ?_, hac⟩
    · intro d p pol hd hki hp
      exact ⟨hI.n ▸ hd, .thn (by rw [hI.kind d hd]; exact hki) hp.2⟩
    · intro d hd hne
      obtain ⟨p, pol', g1, g2⟩ := hdown d hd.2 hne
      have hd' : d < s.n := hI.n ▸ hd.1
      rw [hI.kind d hd'] at g1
      exact ⟨p, pol', g1, hI.n ▸ Nat.lt_trans (hg.kind d p pol' hd' g1) hd', g2⟩
    · intro d hd r hm; exact (hst d hd.1 hd.2).2 r (hI.refs ▸ hm)
    · intro d hd
      have hd' : d < s.n := hI.n ▸ hd.1
      cases e : (s.node d).own with
      | false => rfl
      | true =>
        exfalso
        have k := hg.own d hd' e
        by_cases e' : d = i
        · subst e'
          rcases hroot with ⟨r, -⟩ | r
          · rw [k] at r; simp [Kind.lazy] at r
          · have := hg.lost d hd' r; rw [k] at this; simp [Kind.eager] at this
        · obtain ⟨p, pol', g1, g2⟩ := hdown d hd.2 e'
          rw [hI.kind d hd', k] at g1; cases g1
    · intro d hd hne
      have hd' : d < s.n := hI.n ▸ hd.1
      obtain ⟨p, pol', g1, g2⟩ := hdown d hd.2 hne
      rw [hI.kind d hd'] at g1
      have hpn := hno p (hI.n ▸ Nat.lt_trans (hg.kind d p pol' hd' g1) hd') g2
      have hw := (hst d hd.1 hd.2).1 hne
      rw [hI.st d hd'] at hw
      refine ⟨?_, ?_⟩
      · cases e : (s.node d).ph <;> simp [e, phase] at hw ⊢
        exact hpn ((hg.queued d hd' e).2 p pol' g1)
      · cases e : (s.node d).vec with
        | false => rfl
        | true =>
          obtain ⟨q, pol2, k1, k2, -⟩ := hg.vec d hd' e
          rw [g1] at k1; cases k1
          exact absurd k2 hpn
    · have hcw := (hst c hc (.thn hk .self)).1 (by omega)
      rw [hI.st c hc'] at hcw
      have hpar := hg.keep c i pol hc' hac hkc (by intro e; simp [e, phase] at hcw) (by intro e; simp [e, phase] at hcw)
      exact (hg.par c i hc' hpar).2.1
  have ha : Accepts next σ es' := simulation Inv (fun _ _ _ _ _ hR hs => sim hR hs) hI h'
  obtain ⟨σ', hσ'⟩ := ha.specState_isSome (clientOk _ _)
  obtain ⟨hI', -, hB'⟩ := simulation_state (fun s σ' => Inv s σ' ∧ Held s ∧ Stuck (fun d => d < σ.n ∧ Stems σ.kind i d) i c s)
    (fun _ _ _ _ _ hR hs => (sim hR.1 hs).and ⟨held hR.1 hR.2.1 hs, stuck hR.1 hR.2.1 hR.2.2 hs⟩) ⟨hI, hH, hB⟩ h' hσ'
  have T := told (es := es ++ es') (σ := σ') (by rw [specState_append, hσ]; exact hσ')
  have hi2 := hB'.lt i hB'.root.1
  have hc2 := hB'.leaf.1
  refine ⟨⟨fun hm => ?_, fun hm => ?_⟩, fun hm => ?_, fun hm => ?_⟩
  · have := (T.dead i).mp hm
    rw [hI'.dead i hi2, hB'.ai] at this; cases this
  · have := (T.dead c).mp hm
    rw [hI'.dead c hc2, hB'.ac] at this; cases this
  · have := (T.began i (by simp [hm])).2
    rw [hI'.st i hi2] at this
    rcases hB'.root.2 with ⟨-, k⟩ | k <;> simp [k, phase] at this
  · have := (T.began c (by simp [hm])).2
    rw [hI'.st c hc2, (hB'.st c hB'.leafD (by omega)).1] at this
    simp [phase] at this

/-- `async(launch::deferred, f).then(g)`, the future dropped without having been waited for: the two results and the two functions are never destroyed. -/
theorem deferred_chain_leaks : ∃ s, run step init [.defer 0, .thn 0 1 .sync false, .drop 1] =
      some (s, [.made 0 .deferred, .got 0 0, .made 1 (.cont 0 .sync), .dropped 0, .got 1 1, .dropped 1]) ∧ s.refs = [] ∧
    ∀ ls' s' es', run step s ls' = some (s', es') → .destroyed 0 ∉ es' ∧ .destroyed 1 ∉ es' := by
  refine ⟨_, rfl, rfl, fun ls' s' es' h' => ?_⟩
  have := leak_is_for_ever (ls := [.defer 0, .thn 0 1 .sync false, .drop 1]) (i := 0) (c := 1) (pol := .sync) rfl rfl (by decide) (by decide) (by decide) (by decide)
    (fun d hd _ => ⟨fun _ => rfl, by intro r hr; cases hr⟩) h'
  exact ⟨fun g => this.1.1 (by simp [g]), fun g => this.1.2 (by simp [g])⟩

/-- The same with an executor that is destroyed with the function still in its queue: `async(ex, f).then(g)`. -/
theorem discarded_chain_leaks : ∃ s, run step init [.async 0, .thn 0 1 .later false, .discard 0, .drop 1] =
      some (s, [.made 0 .async, .got 0 0, .made 1 (.cont 0 .later), .dropped 0, .got 1 1, .discarded 0, .dropped 1]) ∧ s.refs = [] ∧
    ∀ ls' s' es', run step s ls' = some (s', es') → .destroyed 0 ∉ es' ∧ .destroyed 1 ∉ es' ∧ .began 1 ∉ es' := by
  refine ⟨_, rfl, rfl, fun ls' s' es' h' => ?_⟩
  have := leak_is_for_ever (ls := [.async 0, .thn 0 1 .later false, .discard 0, .drop 1]) (i := 0) (c := 1) (pol := .later) rfl rfl (by decide) (by decide) (by decide) (by decide)
    (fun d hd _ => ⟨fun hne => by
      have hd' : d < 2 := hd
      have : d = 1 := by omega
      subst this; rfl, by intro r hr; cases hr⟩) h'
  exact ⟨fun g => this.1.1 (by simp [g]), fun g => this.1.2 (by simp [g]), this.2.2⟩

/-- So not everything is destroyed although the client has dropped all it had, and nothing more happens. -/
theorem nothing_left_fails : ∃ ls s es, run step init ls = some (s, es) ∧ s.refs = [] ∧ (∀ i, .made i .promise ∉ es) ∧ (∀ i, .discarded i ∉ es) ∧
    ∃ i k, .made i k ∈ es ∧ .destroyed i ∉ es ∧ ∀ ls' s' es', run step s ls' = some (s', es') → .destroyed i ∉ es' := by
  obtain ⟨s, h1, h2, h3⟩ := deferred_chain_leaks
  exact ⟨_, s, _, h1, h2, by simp, by simp, 0, .deferred, by simp, by simp, fun ls' s' es' h' => (h3 ls' s' es' h').1⟩

/-- If the deferred function is waited for, all is well. -/
example : (run step init [.defer 0, .copy 0 2, .thn 0 1 .sync false, .drop 1, .wait 2, .proceed 0 none, .ret 0, .launch 1 none, .ret 1, .leaveCont 1, .leaveCont 0, .drop 2, .free 1, .free 0]).map
    (fun r => (r.1.refs, (r.1.node 0).alive, (r.1.node 1).alive)) = some ([], false, false) := by decide +kernel

end Verif.StateLife
