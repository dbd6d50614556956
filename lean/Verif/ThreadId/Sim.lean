import Verif.ThreadId.Model
/-! # The model of thread ids follows the specification -/

namespace Verif.ThreadId

theorem upd_same {α : Type} (g : Nat → α) (i : Nat) (x : α) : upd g i x i = x := by simp [upd]
theorem upd_ne {α : Type} (g : Nat → α) {i j : Nat} (x : α) (h : j ≠ i) : upd g i x j = g j := by simp [upd, h]

/-- The value of the thread belongs to it. -/
def Strong (basic : Bool) (σ : Spec) (t : Nat) : Prop :=
  σ.run t = true ∨ if basic then t < σ.cnt ∧ σ.freed t = false else (∃ k, σ.obj k = some t) ∨ ∃ i, σ.var i = some t

structure R (basic : Bool) (nk nv : Nat) (s : State) (σ : Spec) : Prop where
  cnt : σ.cnt = s.cnt
  run : σ.run = s.run
  freed : σ.freed = s.freed
  obj : σ.obj = s.obj
  var : ∀ i, s.var i = match σ.var i with
    | some t => s.val t
    | none => 0
  pos : ∀ i t, σ.var i = some t → t < s.cnt ∧ s.val t ≠ 0
  objs : ∀ k t, s.obj k = some t → t < s.cnt ∧ s.val t ≠ 0 ∧ s.freed t = false ∧ k < nk
  inj : ∀ k l t, s.obj k = some t → s.obj l = some t → k = l
  runs : ∀ t, s.run t = true → t < s.cnt
  bas : basic = true → ∀ t, t < s.cnt → s.val t ≠ 0
  vars : ∀ i, nv ≤ i → σ.var i = none
  uniq : ∀ t u, t ≠ u → Strong basic σ t → Strong basic σ u → s.val t = s.val u → s.val t = 0

theorem R_init (basic : Bool) (nk nv : Nat) : R basic nk nv init start where
  cnt := rfl
  run := rfl
  freed := rfl
  obj := rfl
  var := fun _ => rfl
  pos := fun _ _ h => by cases h
  objs := fun _ _ h => by cases h
  inj := fun _ _ _ h => by cases h
  runs := fun _ h => by cases h
  bas := fun _ _ h => by cases h
  vars := fun _ _ => rfl
  uniq := fun _ _ _ _ _ _ => rfl

theorem Strong.lt {basic : Bool} {nk nv : Nat} {s : State} {σ : Spec} (hR : R basic nk nv s σ) {t : Nat} (h : Strong basic σ t) : t < s.cnt := by
  rcases h with h | h
  · exact hR.runs t (hR.run ▸ h)
  · split at h
    · rw [← hR.cnt]; exact h.1
    · rcases h with ⟨k, h⟩ | ⟨i, h⟩
      · exact (hR.objs k t (hR.obj ▸ h)).1
      · exact (hR.pos i t h).1

/-- A value that may be chosen belongs to nobody. -/
theorem free_ne {basic : Bool} {nk nv : Nat} {s : State} {σ : Spec} (hR : R basic nk nv s σ) {v t : Nat} (hf : free basic nk nv s v = true) (h : Strong basic σ t) : s.val t ≠ v := by
  have hlt := h.lt hR
  simp only [free, Bool.and_eq_true] at hf
  obtain ⟨-, hf⟩ := hf
  rcases h with h | h
  · rw [hR.run] at h
    split at hf
    · have := List.all_eq_true.1 hf t (List.mem_range.2 hlt); simpa [h] using this
    · simp only [Bool.and_eq_true] at hf
      have := List.all_eq_true.1 hf.1.1 t (List.mem_range.2 hlt); simpa [h] using this
  · split at h
    · next hb =>
      rw [if_pos hb] at hf
      have := List.all_eq_true.1 hf t (List.mem_range.2 hlt)
      rw [hR.freed] at h
      simpa [h.2] using this
    · next hb =>
      rw [if_neg hb] at hf
      simp only [Bool.and_eq_true] at hf
      rcases h with ⟨k, h⟩ | ⟨i, h⟩
      · rw [hR.obj] at h
        have := List.all_eq_true.1 hf.1.2 k (List.mem_range.2 (hR.objs k t h).2.2.2)
        simpa [h] using this
      · have hi : i < nv := by
          cases Nat.lt_or_ge i nv with
          | inl h => exact h
          | inr h' => have := hR.vars i h'; rw [h] at this; cases this
        have := List.all_eq_true.1 hf.2 i (List.mem_range.2 hi)
        have e := hR.var i
        rw [h] at e
        simp only at e
        rw [e] at this
        simpa using this

theorem free_pos {basic : Bool} {nk nv : Nat} {s : State} {v : Nat} (hf : free basic nk nv s v = true) : v ≠ 0 := by
  simp only [free, Bool.and_eq_true, decide_eq_true_eq] at hf; exact hf.1

/-- Two ids in variables that are not of threads that are gone are equal exactly if they stand for the same thread. -/
theorem same_iff {basic : Bool} {nk nv : Nat} {s : State} {σ : Spec} (hR : R basic nk nv s σ) {i j : Nat} (h : basic = true → σ.gone (σ.var i) = false ∧ σ.gone (σ.var j) = false) :
    s.var i = s.var j ↔ σ.var i = σ.var j := by
  have strong : ∀ i t, (basic = true → σ.gone (σ.var i) = false) → σ.var i = some t → Strong basic σ t := by
    intro i t h e
    cases hb : basic with
    | false => exact .inr (by simp only [Bool.false_eq_true, if_false]; exact .inr ⟨i, e⟩)
    | true =>
      have := h hb
      rw [e] at this
      simp only [Spec.gone] at this
      cases hr : σ.run t with
      | true => exact .inl hr
      | false => exact .inr (by simp only [if_true]; exact ⟨hR.cnt ▸ (hR.pos i t e).1, by simpa [hr] using this⟩)
  have e1 := hR.var i
  have e2 := hR.var j
  constructor
  · intro e
    cases hi : σ.var i with
    | none =>
      cases hj : σ.var j with
      | none => rfl
      | some u => rw [hi] at e1; rw [hj] at e2; simp only at e1 e2; exact absurd (by rw [← e2, ← e, e1]) (hR.pos j u hj).2
    | some t =>
      cases hj : σ.var j with
      | none => rw [hi] at e1; rw [hj] at e2; simp only at e1 e2; exact absurd (by rw [← e1, e, e2]) (hR.pos i t hi).2
      | some u =>
        rw [hi] at e1; rw [hj] at e2; simp only at e1 e2
        by_cases htu : t = u
        · rw [htu]
        · exact absurd (hR.uniq t u htu (strong i t (fun hb => (h hb).1) hi) (strong j u (fun hb => (h hb).2) hj) (by rw [← e1, e, e2])) (hR.pos i t hi).2
  · intro e; rw [e1, e2, e]

theorem cmp_ok {x y : Nat} {b : Bool} {same : Bool} (o : Op) (h : same = true ↔ x = y) (he : expect same o = some b) : cmp x y o = b := by
  cases same with
  | true =>
    have h := h.1 rfl
    subst h
    cases o <;> simp [expect] at he <;> subst he <;> simp [cmp]
  | false =>
    have h : x ≠ y := fun e => by have := h.2 e; cases this
    cases o <;> simp [expect] at he <;> subst he <;> simp [cmp, h]

/-- The thread that `k` refers to and a running thread have the same id only if they are the same. -/
theorem self_iff {basic : Bool} {nk nv : Nat} {s : State} {σ : Spec} (hR : R basic nk nv s σ) {c k t : Nat} (hc : s.run c = true) (hk : s.obj k = some t) : s.val c = s.val t ↔ t = c := by
  constructor
  · intro e
    by_cases h : c = t
    · exact h.symm
    · have h1 : Strong basic σ c := .inl (by rw [hR.run]; exact hc)
      obtain ⟨a, b, d, -⟩ := hR.objs k t hk
      have h2 : Strong basic σ t := .inr (by
        cases basic with
        | true => simp only [if_true]; exact ⟨hR.cnt ▸ a, by rw [hR.freed]; exact d⟩
        | false => simp only [Bool.false_eq_true, if_false]; exact .inl ⟨k, by rw [hR.obj]; exact hk⟩)
      exact absurd (e ▸ hR.uniq c t h h1 h2 e) b
  · intro e; rw [e]

/-- What a new thread with value `v` does to the rule that values are different. -/
theorem uniq_new {basic : Bool} {nk nv : Nat} {s : State} {σ σ' : Spec} {v : Nat} (hR : R basic nk nv s σ) (hv : v = 0 ∨ free basic nk nv s v = true)
    (hs : ∀ t, t ≠ s.cnt → Strong basic σ' t → Strong basic σ t) (t u : Nat) (htu : t ≠ u) (ht : Strong basic σ' t) (hu : Strong basic σ' u) (e : upd s.val s.cnt v t = upd s.val s.cnt v u) :
    upd s.val s.cnt v t = 0 := by
  by_cases h : t = s.cnt
  · have hu' : u ≠ s.cnt := fun e => htu (h.trans e.symm)
    have su := hs u hu' hu
    rw [h, upd_same] at e ⊢
    rw [upd_ne _ _ hu'] at e
    rcases hv with hv | hv
    · exact hv
    · exact absurd e.symm (free_ne hR hv su)
  · have st := hs t h ht
    rw [upd_ne _ _ h] at e ⊢
    by_cases h2 : u = s.cnt
    · rw [h2, upd_same] at e
      rcases hv with hv | hv
      · rw [e, hv]
      · exact absurd e (free_ne hR hv st)
    · rw [upd_ne _ _ h2] at e
      exact hR.uniq t u htu st (hs u h2 hu) e

/-- An object no longer refers to its thread. -/
theorem R_drop {basic : Bool} {nk nv : Nat} {s : State} {σ : Spec} (hR : R basic nk nv s σ) {k t : Nat} (hk : s.obj k = some t) :
    R basic nk nv { s with obj := upd s.obj k none, freed := upd s.freed t true } { σ with obj := upd s.obj k none, run := s.run, freed := upd s.freed t true } := by
  have mono : ∀ u, Strong basic { σ with obj := upd s.obj k none, run := s.run, freed := upd s.freed t true } u → Strong basic σ u := by
    intro u hu
    rcases hu with hu | hu
    · exact .inl (by rw [hR.run]; exact hu)
    · refine .inr ?_
      cases basic with
      | true =>
        simp only [if_true, upd] at hu ⊢
        split at hu
        · cases hu.2
        · rw [hR.freed]; exact hu
      | false =>
        simp only [Bool.false_eq_true, if_false] at hu ⊢
        rcases hu with ⟨l, hu⟩ | hu
        · simp only [upd] at hu
          split at hu
          · cases hu
          · exact .inl ⟨l, by rw [hR.obj]; exact hu⟩
        · exact .inr hu
  exact { hR with
    run := rfl
    freed := rfl
    obj := rfl
    objs := fun l u h => by
      simp only [upd] at h ⊢
      split at h
      · cases h
      · next hl =>
        have := hR.objs l u h
        rw [if_neg (fun e => hl (hR.inj l k t (by rw [← e]; exact h) hk))]
        exact this
    inj := fun a b u h1 h2 => by
      simp only [upd] at h1 h2
      split at h1
      · cases h1
      · split at h2
        · cases h2
        · exact hR.inj a b u h1 h2
    uniq := fun a b hab ha hb e => hR.uniq a b hab (mono a ha) (mono b hb) e }

/-- A variable gets the id of a thread whose value belongs to it, or, where values can be used again, any known id. -/
theorem R_set {basic : Bool} {nk nv : Nat} {s : State} {σ : Spec} (hR : R basic nk nv s σ) {i x : Nat} {o : Option Nat} (hi : i < nv) (hx : x = match o with
    | some t => s.val t
    | none => 0) (ho : ∀ t, o = some t → t < s.cnt ∧ s.val t ≠ 0 ∧ (basic = true ∨ Strong basic σ t)) :
    R basic nk nv { s with var := upd s.var i x } { σ with var := upd σ.var i o } := by
  have mono : ∀ u, Strong basic { σ with var := upd σ.var i o } u → Strong basic σ u := by
    intro u hu
    rcases hu with hu | hu
    · exact .inl hu
    · cases basic with
      | true => exact .inr hu
      | false =>
        simp only [Bool.false_eq_true, if_false] at hu
        rcases hu with hu | ⟨j, hu⟩
        · exact .inr (by simp only [Bool.false_eq_true, if_false]; exact .inl hu)
        · simp only [upd] at hu
          split at hu
          · exact (ho u hu).2.2.resolve_left (by simp)
          · exact .inr (by simp only [Bool.false_eq_true, if_false]; exact .inr ⟨j, hu⟩)
  exact { hR with
    var := fun j => by
      simp only [upd]
      by_cases h : j = i
      · simp only [if_pos h]; exact hx
      · simp only [if_neg h]; exact hR.var j
    pos := fun j t h => by
      simp only [upd] at h
      split at h
      · exact ⟨(ho t h).1, (ho t h).2.1⟩
      · exact hR.pos j t h
    vars := fun j h => by
      simp only
      rw [upd_ne _ _ (by omega)]
      exact hR.vars j h
    uniq := fun a b hab ha hb e => hR.uniq a b hab (mono a ha) (mono b hb) e }

theorem sim {basic : Bool} {nk nv : Nat} {s s' : State} {l : Label} {es : List Event} {σ : Spec} (hR : R basic nk nv s σ) (hs : step basic nk nv s l = some (s', es)) :
    Follows (next (!basic)) (R basic nk nv s') σ es := by
  cases l with
  | start k v =>
    simp only [step] at hs
    split at hs <;> cases hs
    next h =>
    obtain ⟨hk, ho, hf⟩ := h
    simp only [Follows, next, hR.cnt, hR.obj, ho, and_self, if_true]
    exact {
      cnt := rfl, run := by rw [hR.run], freed := by rw [hR.freed], obj := rfl
      var := fun i => by
        have := hR.var i
        cases h : σ.var i with
        | none => rw [h] at this; exact this
        | some t => rw [h] at this; simp only at this ⊢; rw [upd_ne _ _ (by have := (hR.pos i t h).1; omega)]; exact this
      pos := fun i t h => by
        have := hR.pos i t h
        exact ⟨Nat.lt_succ_of_lt this.1, by simp only; rw [upd_ne _ _ (by omega)]; exact this.2⟩
      objs := fun l t h => by
        simp only [upd] at h ⊢
        by_cases hl : l = k
        · rw [if_pos hl] at h; cases h; simp [free_pos hf, hl, hk]
        · rw [if_neg hl] at h
          have := hR.objs l t h
          rw [if_neg (by omega), if_neg (by omega)]
          exact ⟨by omega, this.2⟩
      inj := fun a b t h1 h2 => by
        simp only [upd] at h1 h2
        split at h1 <;> split at h2
        · next x y => rw [x, y]
        · cases h1; exact absurd (hR.objs b _ h2).1 (by omega)
        · cases h2; exact absurd (hR.objs a _ h1).1 (by omega)
        · exact hR.inj a b t h1 h2
      runs := fun t h => by
        simp only [upd] at h ⊢
        split at h
        · omega
        · have := hR.runs t h; omega
      bas := fun hb t h => by
        simp only [upd] at h ⊢
        split
        · exact free_pos hf
        · exact hR.bas hb t (by omega)
      vars := hR.vars
      uniq := uniq_new hR (.inr hf) (by
        intro t ht h
        rcases h with h | h
        · simp only [upd_ne _ _ ht] at h; exact .inl h
        · refine .inr ?_
          cases basic with
          | true => simp only [if_true] at h ⊢; simp only [upd_ne _ _ ht] at h; exact ⟨by rw [hR.cnt]; omega, h.2⟩
          | false =>
            simp only [Bool.false_eq_true, if_false] at h ⊢
            rcases h with ⟨l, h⟩ | h
            · simp only [upd] at h
              split at h
              · cases h; exact absurd rfl ht
              · exact .inl ⟨l, by rw [hR.obj]; exact h⟩
            · exact .inr h) }
  | foreign v =>
    simp only [step] at hs
    split at hs <;> cases hs
    next h =>
    have hv : v = 0 ∨ free basic nk nv s v = true := by
      unfold foreignOk at h
      split at h
      · exact .inr h
      · exact .inl (by simpa using h)
    have hp : basic = true → v ≠ 0 := fun hb => by unfold foreignOk at h; rw [if_pos hb] at h; exact free_pos h
    simp only [Follows, next, hR.cnt, if_true]
    exact {
      cnt := rfl, run := by rw [hR.run], freed := by rw [hR.freed], obj := hR.obj
      var := fun i => by
        have := hR.var i
        cases h : σ.var i with
        | none => rw [h] at this; exact this
        | some t => rw [h] at this; simp only at this ⊢; rw [upd_ne _ _ (by have := (hR.pos i t h).1; omega)]; exact this
      pos := fun i t h => by
        have := hR.pos i t h
        exact ⟨Nat.lt_succ_of_lt this.1, by simp only; rw [upd_ne _ _ (by omega)]; exact this.2⟩
      objs := fun l t h => by
        have := hR.objs l t h
        simp only [upd]
        rw [if_neg (by omega), if_neg (by omega)]
        exact ⟨by omega, this.2⟩
      inj := hR.inj
      runs := fun t h => by
        simp only [upd] at h ⊢
        split at h
        · omega
        · have := hR.runs t h; omega
      bas := fun hb t h => by
        simp only [upd] at h ⊢
        split
        · exact hp hb
        · exact hR.bas hb t (by omega)
      vars := hR.vars
      uniq := uniq_new hR hv (by
        intro t ht h
        rcases h with h | h
        · simp only [upd_ne _ _ ht] at h; exact .inl h
        · refine .inr ?_
          cases basic with
          | true => simp only [if_true] at h ⊢; simp only [upd_ne _ _ ht] at h; exact ⟨by rw [hR.cnt]; omega, h.2⟩
          | false => exact h) }
  | make t v =>
    simp only [step] at hs
    split at hs <;> cases hs
    next h =>
    obtain ⟨hr, h0, hf⟩ := h
    simp only [Follows]
    exact {
      cnt := hR.cnt, run := hR.run, freed := hR.freed, obj := hR.obj
      var := fun i => by
        have := hR.var i
        cases h : σ.var i with
        | none => rw [h] at this; exact this
        | some u => rw [h] at this; simp only at this ⊢; rw [upd_ne _ _ (fun e => (hR.pos i u h).2 (by rw [e]; exact h0))]; exact this
      pos := fun i u h => by
        have := hR.pos i u h
        exact ⟨this.1, by simp only [upd]; split; exact free_pos hf; exact this.2⟩
      objs := fun l u h => by
        have := hR.objs l u h
        exact ⟨this.1, by simp only [upd]; split; exact free_pos hf; exact this.2.1, this.2.2⟩
      inj := hR.inj
      runs := hR.runs
      bas := fun hb u h => by
        simp only [upd]
        split
        · exact free_pos hf
        · exact hR.bas hb u h
      vars := hR.vars
      uniq := fun a b hab ha hb e => by
        simp only [upd] at e ⊢
        split at e
        · next x =>
          rw [if_neg (fun y => hab (x.trans y.symm))] at e
          exact absurd e.symm (free_ne hR hf hb)
        · next x =>
          rw [if_neg x]
          split at e
          · exact absurd e (free_ne hR hf ha)
          · exact hR.uniq a b hab ha hb e }
  | fin t =>
    simp only [step] at hs
    split at hs <;> cases hs
    next h =>
    simp only [Follows, next, hR.run, h, if_true]
    have mono : ∀ u, Strong basic { σ with run := upd s.run t false } u → Strong basic σ u := by
      intro u hu
      rcases hu with hu | hu
      · simp only [upd] at hu
        split at hu
        · cases hu
        · exact .inl (by rw [hR.run]; exact hu)
      · exact .inr hu
    exact { hR with
      run := rfl
      runs := fun u h => by
        simp only [upd] at h
        split at h
        · cases h
        · exact hR.runs u h
      uniq := fun a b hab ha hb e => hR.uniq a b hab (mono a ha) (mono b hb) e }
  | reap t =>
    simp only [step] at hs
    split at hs <;> cases hs
    next h =>
    simp only [Follows, next]
    have mono : ∀ u, Strong basic { σ with freed := upd σ.freed t true } u → Strong basic σ u := by
      intro u hu
      rcases hu with hu | hu
      · exact .inl hu
      · refine .inr ?_
        cases basic with
        | false => exact hu
        | true =>
          simp only [if_true, upd] at hu ⊢
          split at hu
          · cases hu.2
          · exact hu
    exact { hR with
      freed := by rw [hR.freed]
      objs := fun k u hk => by
        have := hR.objs k u hk
        refine ⟨this.1, this.2.1, ?_, this.2.2.2⟩
        simp only; rw [upd_ne _ _ (fun e => h.2 k this.2.2.2 (by rw [← e]; exact hk))]; exact this.2.2.1
      uniq := fun a b hab ha hb e => hR.uniq a b hab (mono a ha) (mono b hb) e }
  | join c k =>
    simp only [step] at hs
    split at hs
    · next hc =>
      split at hs
      · next t hk =>
        have hsi := self_iff hR hc.1 hk
        have hid : objId s k = s.val t := by simp [objId, hk]
        rw [hid] at hs
        split at hs
        · next e =>
          cases hs
          simp only [Follows, next, hR.obj, hk, hsi.1 e, if_true]
          exact hR
        · next e =>
          split at hs <;> cases hs
          next hr =>
          have htc : t ≠ c := fun h => e (hsi.2 h)
          simp only [Follows, next, hR.obj, hk, hR.run, hr, and_true, htc, ne_eq, not_false_eq_true, if_true, hR.freed]
          exact R_drop hR hk
      · cases hs
    · cases hs
  | detach k =>
    simp only [step] at hs
    split at hs <;> cases hs
    next t hk =>
    simp only [Follows, next, hR.obj, hk, hR.run, hR.freed]
    exact R_drop hR hk
  | get i k =>
    simp only [step] at hs
    split at hs <;> cases hs
    next h =>
    simp only [Follows, next]
    refine R_set hR h (by rw [hR.obj]; rfl) (fun t ht => ?_)
    have := hR.objs k t (hR.obj ▸ ht)
    refine ⟨this.1, this.2.1, .inr (.inr ?_)⟩
    cases basic with
    | true => simp only [if_true]; exact ⟨by rw [hR.cnt]; exact this.1, by rw [hR.freed]; exact this.2.2.1⟩
    | false => simp only [Bool.false_eq_true, if_false]; exact .inl ⟨k, ht⟩
  | self i t =>
    simp only [step] at hs
    split at hs <;> cases hs
    next h =>
    simp only [Follows, next, hR.run, h.2.1, if_true]
    have := R_set hR (o := some t) (x := s.val t) h.1 rfl (fun u hu => by cases hu; exact ⟨hR.runs t h.2.1, h.2.2, .inr (.inl (by rw [hR.run]; exact h.2.1))⟩)
    rw [hR.run] at this
    exact this
  | copy i j =>
    simp only [step] at hs
    split at hs <;> cases hs
    next h =>
    simp only [Follows, next]
    cases hb : basic with
    | false =>
      subst hb
      exact R_set hR h (hR.var j) (fun t ht => ⟨(hR.pos j t ht).1, (hR.pos j t ht).2, .inr (.inr (by simp only [Bool.false_eq_true, if_false]; exact .inr ⟨j, ht⟩))⟩)
    | true =>
      subst hb
      exact R_set hR h (hR.var j) (fun t ht => ⟨(hR.pos j t ht).1, (hR.pos j t ht).2, .inl rfl⟩)
  | reset i =>
    simp only [step] at hs
    split at hs <;> cases hs
    next h =>
    simp only [Follows, next]
    exact R_set hR h rfl (fun t ht => by cases ht)
  | compare i j o =>
    simp only [step] at hs
    cases hs
    simp only [Follows, next]
    split
    · next σ' e =>
      split at e
      · cases e; exact hR
      · split at e
        · split at e <;> cases e; exact hR
        · cases e; exact hR
    · trivial
    · next e =>
      split at e
      · cases e
      · next hg =>
        have hsame := same_iff hR (i := i) (j := j) (fun hb => by subst hb; simpa using hg)
        split at e
        · next b he =>
          split at e
          · cases e
          · next hne => exact hne (cmp_ok o (by rw [decide_eq_true_iff]; exact hsame.symm) he)
        · cases e

end Verif.ThreadId
