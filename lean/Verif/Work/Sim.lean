import Verif.Work.Model
/-! # The model of `work` follows the specification -/

namespace Verif.Work

/-- How many variables stand for `f`. -/
def cnt (n : Nat) (h : Nat → Handle) (f : Nat) : Nat := (List.range n).countP fun i => decide (h i = .has f)

def ind (x : Handle) (f : Nat) : Nat := if x = .has f then 1 else 0

theorem cnt_succ (n : Nat) (h : Nat → Handle) (f : Nat) : cnt (n + 1) h f = cnt n h f + ind (h n) f := by
  simp [cnt, ind, List.range_succ, List.countP_append, List.countP_cons]

theorem cnt_upd_ge (n : Nat) (h : Nat → Handle) (f i : Nat) (x : Handle) (hi : n ≤ i) : cnt n (upd h i x) f = cnt n h f := by
  induction n with
  | zero => rfl
  | succ n ih => rw [cnt_succ, cnt_succ, ih (by omega)]; simp only [upd]; rw [if_neg (by omega)]

theorem cnt_upd (n : Nat) (h : Nat → Handle) (f i : Nat) (x : Handle) (hi : i < n) : cnt n (upd h i x) f + ind (h i) f = cnt n h f + ind x f := by
  induction n with
  | zero => omega
  | succ n ih =>
    rw [cnt_succ, cnt_succ]
    by_cases e : i = n
    · subst e; rw [cnt_upd_ge _ _ _ _ _ (Nat.le_refl _)]; simp only [upd, if_pos]; omega
    · have := ih (by omega)
      simp only [upd] at *; rw [if_neg (by omega : ¬ n = i)]; omega

theorem cnt_pos_iff (n : Nat) (h : Nat → Handle) (f : Nat) : 0 < cnt n h f ↔ referred n h f = true := by
  simp [cnt, referred, List.countP_pos_iff]

theorem cnt_pos {n : Nat} {h : Nat → Handle} {f i : Nat} (hi : i < n) (e : h i = .has f) : 0 < cnt n h f := by
  rw [cnt_pos_iff]; simp only [referred, List.any_eq_true, List.mem_range]; exact ⟨i, hi, by simp [e]⟩

/-- The counts are right, when `x` is a pointer in no variable. -/
structure Q (n : Nat) (s : State) (x : Handle) : Prop where
  count : ∀ f, s.count f = cnt n s.h f + ind x f
  alive : ∀ f, s.alive f = true ↔ 0 < s.count f
  fresh : ∀ f, s.fresh ≤ f → s.count f = 0
  far : ∀ i, n ≤ i → s.h i = .absent

theorem Q.lt {n : Nat} {s : State} {x : Handle} (q : Q n s x) {i : Nat} (h : s.h i ≠ .absent) : i < n := by
  cases Nat.lt_or_ge i n with
  | inl h => exact h
  | inr h' => exact absurd (q.far i h') h

theorem Q.acquire {n : Nat} {s : State} (q : Q n s .empty) {j : Nat} : Q n (acquire s (s.h j)) (s.h j) := by
  cases e : s.h j with
  | has f =>
    have hp : 0 < cnt n s.h f := cnt_pos (q.lt (by rw [e]; simp)) e
    have hc := q.count f
    refine ⟨fun g => ?_, fun g => ?_, fun g hg => ?_, q.far⟩
    · simp only [Work.acquire, upd, ind]
      by_cases eg : g = f
      · subst eg; simp [ind] at hc ⊢; exact hc
      · have := q.count g; simp [ind, eg, Ne.symm eg] at this ⊢; exact this
    · simp only [Work.acquire, upd]
      by_cases eg : g = f
      · subst eg; rw [if_pos rfl, q.alive]; omega
      · rw [if_neg eg]; exact q.alive g
    · simp only [Work.acquire, upd]
      by_cases eg : g = f
      · subst eg; have := q.fresh g hg; omega
      · rw [if_neg eg]; exact q.fresh g hg
  | absent => exact ⟨fun g => by have := q.count g; simpa [Work.acquire, ind] using this, q.alive, q.fresh, q.far⟩
  | empty => exact q

theorem Q.put {n : Nat} {s : State} {x : Handle} (q : Q n s x) {i : Nat} (hi : i < n) : Q n (put s i x) (s.h i) := by
  refine ⟨fun g => ?_, q.alive, q.fresh, fun k hk => ?_⟩
  · have := cnt_upd n s.h g i x hi; have := q.count g; simp only [Work.put]; omega
  · simp only [Work.put, upd]; rw [if_neg (by omega)]; exact q.far k hk

/-- A pointer to nothing does not count. -/
theorem Q.null {n : Nat} {s : State} {x y : Handle} (q : Q n s x) (hx : ∀ f, x ≠ .has f) (hy : ∀ f, y ≠ .has f) : Q n s y :=
  ⟨fun g => by have := q.count g; simp only [ind, if_neg (hx g)] at this; simp only [ind, if_neg (hy g)]; exact this, q.alive, q.fresh, q.far⟩

structure R (n : Nat) (s : State) (σ : Spec) : Prop where
  size : σ.size = n
  ref : σ.ref = s.h
  due : σ.due = none
  q : Q n s .empty
  made : ∀ f, σ.made f = true ↔ f < s.fresh
  gone : ∀ f, σ.gone f = true ↔ f < s.fresh ∧ s.alive f = false
  run : σ.run = s.run
  ran : ∀ c f, s.run c = some f → f < s.fresh

theorem R_init (n : Nat) : R n init (start n) where
  size := rfl
  ref := rfl
  due := rfl
  q := ⟨fun f => by
    have : cnt n (fun _ => Handle.absent) f = 0 := by
      cases Nat.eq_zero_or_pos (cnt n (fun _ => Handle.absent) f) with
      | inl h => exact h
      | inr h => have h := (cnt_pos_iff _ _ _).1 h; simp [referred] at h
    simp [init, ind, this], fun f => by simp [init], fun _ _ => rfl, fun _ _ => rfl⟩
  made := fun f => by simp [start, init]
  gone := fun f => by simp [start, init]
  run := rfl
  ran := fun _ _ h => by cases h

/-- What does not change when pointers are moved about. -/
structure Same (s s' : State) : Prop where
  alive : s'.alive = s.alive
  fresh : s'.fresh = s.fresh
  run : s'.run = s.run

/-- The end of an operation: the pointer `old` that was in a variable is released. -/
theorem follows_release {n : Nat} {s t : State} {σ : Spec} (hR : R n s σ) (hs : Same s t) {old : Handle} (q : Q n t old) :
    ∃ σ', σ.change old t.h = .ok σ' ∧ Follows next (R n (release t old).1) σ' (release t old).2 := by
  refine ⟨_, rfl, ?_⟩
  cases old with
  | has f =>
    have hc := q.count f
    have hal : t.alive f = true := (q.alive f).2 (by rw [hc]; simp [ind])
    have hlt : f < t.fresh := by
      cases Nat.lt_or_ge f t.fresh with
      | inl h => exact h
      | inr h => have := q.fresh f h; simp [ind] at hc; omega
    have hi : ind (.has f) f = 1 := by simp [ind]
    have hio : ∀ g, g ≠ f → ind (.has f) g = 0 := fun g hg => by simp [ind, Ne.symm hg]
    by_cases e : t.count f = 1
    · have h0 : referred n t.h f = false := by
        cases hr : referred n t.h f with
        | false => rfl
        | true => have := (cnt_pos_iff n t.h f).2 hr; omega
      have hg : σ.gone f = false := by
        cases e' : σ.gone f with
        | false => rfl
        | true => have := ((hR.gone f).1 e').2; rw [hs.alive] at hal; rw [hal] at this; cases this
      simp only [release, if_pos e, hR.size, h0, Follows, next]
      simp only [Bool.false_eq_true, if_false]
      rw [if_pos ⟨trivial, hg⟩]
      dsimp only
      refine ⟨rfl, rfl, rfl, ⟨fun g => ?_, fun g => ?_, fun g hg => ?_, q.far⟩, ?_, fun g => ?_, hR.run.trans hs.run.symm, ?_⟩
      · simp only [upd]
        by_cases eg : g = f
        · subst eg; rw [if_pos rfl]; simp only [ind]; simp; omega
        · rw [if_neg eg, q.count g, hio g eg]; simp [ind]
      · simp only [upd]
        by_cases eg : g = f
        · subst eg; simp
        · rw [if_neg eg, if_neg eg]; exact q.alive g
      · simp only [upd]; split
        · rfl
        · exact q.fresh g hg
      · simpa only [hs.fresh] using hR.made
      · simp only [upd]
        by_cases eg : g = f
        · subst eg; simp [hlt]
        · rw [if_neg eg, if_neg eg, hR.gone g, hs.alive, hs.fresh]
      · simpa only [hs.run, hs.fresh] using hR.ran
    · have h1 : referred n t.h f = true := (cnt_pos_iff n t.h f).1 (by have := (q.alive f).1 hal; omega)
      simp only [release, if_neg e, hR.size, h1, Follows, if_true]
      refine ⟨rfl, rfl, rfl, ⟨fun g => ?_, fun g => ?_, fun g hg => ?_, q.far⟩, ?_, fun g => ?_, hR.run.trans hs.run.symm, ?_⟩
      · simp only [upd]
        by_cases eg : g = f
        · subst eg; rw [if_pos rfl]; have : ind .empty g = 0 := by simp [ind]
          omega
        · rw [if_neg eg, q.count g, hio g eg]; simp [ind]
      · simp only [upd]
        by_cases eg : g = f
        · subst eg; rw [if_pos rfl]; have := (q.alive g).1 hal; exact ⟨fun _ => by omega, fun _ => hal⟩
        · rw [if_neg eg]; exact q.alive g
      · simp only [upd]; split
        · next eg => subst eg; exact absurd (show t.fresh ≤ g from hg) (by omega)
        · exact q.fresh g hg
      · simpa only [hs.fresh] using hR.made
      · rw [hR.gone g]; simp only [hs.alive, hs.fresh]
      · simpa only [hs.run, hs.fresh] using hR.ran
  | _ =>
    simp only [release, Follows]
    refine ⟨hR.size, rfl, rfl, q.null (fun _ => by simp) (fun _ => by simp), ?_, ?_, hR.run.trans hs.run.symm, ?_⟩
    · simpa only [hs.fresh] using hR.made
    · simpa only [hs.alive, hs.fresh] using hR.gone
    · simpa only [hs.run, hs.fresh] using hR.ran

theorem acquire_same (s : State) (x : Handle) : Same s (acquire s x) := by cases x <;> exact ⟨rfl, rfl, rfl⟩
theorem acquire_h (s : State) (x : Handle) : (acquire s x).h = s.h := by cases x <;> rfl
theorem Same.put {s t : State} (h : Same s t) (i : Nat) (x : Handle) : Same s (put t i x) := ⟨h.alive, h.fresh, h.run⟩
theorem Same.rfl {s : State} : Same s s := ⟨Eq.refl _, Eq.refl _, Eq.refl _⟩

/-- An event that changes the variables, followed by the release of a pointer. -/
theorem follows_change {n : Nat} {s t : State} {σ : Spec} (hR : R n s σ) (hs : Same s t) {old : Handle} (q : Q n t old) {e : Event}
    (he : rule σ e = σ.change old t.h) : Follows next (R n (release t old).1) σ (e :: (release t old).2) := by
  obtain ⟨σ', h1, h2⟩ := follows_release hR hs q
  have : next σ e = .ok σ' := by simp only [next, hR.due]; rw [he, h1]
  simp only [Follows, this]; exact h2

theorem upd_same {α : Type} (g : Nat → α) (i : Nat) (x : α) : upd g i x i = x := by simp [upd]

theorem upd_self {α : Type} (g : Nat → α) (i : Nat) : upd g i (g i) = g := by
  funext j; simp only [upd]; split
  · next e => rw [e]
  · rfl

/-- An event that moves no last pointer away. -/
theorem follows_plain {n : Nat} {s t : State} {σ : Spec} (hR : R n s σ) (hs : Same s t) (q : Q n t .empty) {e : Event}
    (he : rule σ e = .ok { σ with ref := t.h }) : Follows next (R n t) σ [e] := by
  have : next σ e = .ok { σ with ref := t.h } := by simp only [next, hR.due]; rw [he]; simp only [hR.due]
  simp only [Follows, this]
  refine ⟨hR.size, rfl, hR.due, q, ?_, ?_, hR.run.trans hs.run.symm, ?_⟩
  · simpa only [hs.fresh] using hR.made
  · simpa only [hs.alive, hs.fresh] using hR.gone
  · simpa only [hs.run, hs.fresh] using hR.ran

theorem sim_make {n : Nat} {s : State} {σ : Spec} (hR : R n s σ) {i : Nat} (hi : i < n) (h : s.h i = .absent) :
    Follows next (R n { s with h := upd s.h i (.has s.fresh), count := upd s.count s.fresh 1, alive := upd s.alive s.fresh true, fresh := s.fresh + 1 }) σ [.made i s.fresh] := by
  have hm : σ.made s.fresh = false := by
    cases e : σ.made s.fresh with
    | false => rfl
    | true => have := (hR.made _).1 e; omega
  have : next σ (.made i s.fresh) = .ok { σ with ref := upd σ.ref i (.has s.fresh), made := upd σ.made s.fresh true } := by
    simp only [next, hR.due, rule]; rw [if_pos ⟨by rw [hR.ref]; exact h, hm⟩]
  simp only [Follows, this]
  have hz := hR.q.fresh s.fresh (Nat.le_refl _)
  refine ⟨hR.size, by rw [hR.ref], hR.due, ⟨fun g => ?_, fun g => ?_, fun g hg => ?_, fun k hk => ?_⟩, fun g => ?_, fun g => ?_, hR.run, fun c f hc => ?_⟩
  · have h1 := cnt_upd n s.h g i (.has s.fresh) hi
    have h2 := hR.q.count g
    rw [h] at h1
    simp only [upd, ind] at *
    by_cases eg : g = s.fresh
    · subst eg; simp at h1 h2 ⊢; omega
    · simp [eg, Ne.symm eg] at h1 h2 ⊢; omega
  · simp only [upd]
    by_cases eg : g = s.fresh
    · simp [eg]
    · rw [if_neg eg, if_neg eg]; exact hR.q.alive g
  · have hg : s.fresh + 1 ≤ g := hg
    simp only [upd]; rw [if_neg (by omega)]; exact hR.q.fresh g (by omega)
  · simp only [upd]; rw [if_neg (by omega)]; exact hR.q.far k hk
  · simp only [upd]
    by_cases eg : g = s.fresh
    · simp [eg]
    · rw [if_neg eg, hR.made]; omega
  · simp only [upd]
    by_cases eg : g = s.fresh
    · subst eg; simp only [if_true]; rw [hR.gone]; simp
    · rw [if_neg eg, hR.gone]
      exact ⟨fun ⟨a, b⟩ => ⟨by omega, b⟩, fun ⟨a, b⟩ => ⟨by omega, b⟩⟩
  · have := hR.ran c f hc; show f < s.fresh + 1; omega

theorem sim_moveAssign {n : Nat} {s : State} {σ : Spec} (hR : R n s σ) {i j : Nat} (hi : s.h i ≠ .absent) (hj : s.h j ≠ .absent) :
    Follows next (R n (moveAssign s i j).1) σ (.moveAssigned i j :: (moveAssign s i j).2) := by
  have q1 : Q n (put s j .empty) (s.h j) := hR.q.put (hR.q.lt hj)
  have q2 := q1.put (hR.q.lt hi)
  by_cases e : i = j
  · subst e
    have hx : (put s i .empty).h i = .empty := by simp [put, upd]
    have hh : (put (put s i .empty) i (s.h i)) = s := by
      simp only [put]
      congr 1
      funext k; simp only [upd]; split
      · next e => rw [e]
      · rfl
    have : moveAssign s i i = (s, []) := by simp only [moveAssign]; rw [hx, hh]; rfl
    rw [this]
    refine follows_plain hR .rfl hR.q ?_
    simp only [rule]; rw [if_pos (by rw [hR.ref]; exact ⟨hi, hi⟩), if_pos trivial, ← hR.ref]
  · have hx : (put s j .empty).h i = s.h i := by simp only [put, upd]; rw [if_neg e]
    simp only [moveAssign]
    rw [hx] at q2 ⊢
    refine follows_change hR ((Same.rfl.put _ _).put _ _) q2 ?_
    simp only [rule, hR.ref]; rw [if_pos ⟨hi, hj⟩, if_neg e]; rfl

theorem sim_assign {n : Nat} {s : State} {σ : Spec} (hR : R n s σ) {i j : Nat} (hi : s.h i ≠ .absent) {e : Event}
    (he : rule σ e = σ.change (s.h i) (upd s.h i (s.h j))) :
    Follows next (R n (assign s i j).1) σ (e :: (assign s i j).2) := by
  have q := (hR.q.acquire (j := j)).put (i := i) (hR.q.lt hi)
  rw [acquire_h] at q
  refine follows_change hR ((acquire_same s _).put _ _) q ?_
  rw [he]; simp only [put, acquire_h]

theorem release_h (s : State) (x : Handle) : (release s x).1.h = s.h := by
  cases x <;> simp only [release]
  split <;> rfl

theorem upd_comm {α : Type} (g : Nat → α) {i j : Nat} (x y : α) (h : i ≠ j) : upd (upd g i x) j y = upd (upd g j y) i x := by
  funext k; simp only [upd]
  by_cases e : k = j
  · subst e; rw [if_pos rfl, if_neg (Ne.symm h), if_pos rfl]
  · rw [if_neg e, if_neg e]

/-- The counts afterwards. -/
theorem upd_twice {α : Type} (g : Nat → α) (i : Nat) (x y : α) : upd (upd g i x) i y = upd g i y := by
  funext k; simp only [upd]; split <;> rfl

/-- The old form does the same for two variables. -/
theorem old_eq {n : Nat} {s : State} (q : Q n s .empty) {i j : Nat} (hi : s.h i ≠ .absent) (hj : s.h j ≠ .absent) (hij : i ≠ j) : oldMoveAssign s i j = moveAssign s i j := by
  have hx : (put s j .empty).h i = s.h i := by simp only [put, upd]; rw [if_neg hij]
  have hh : (assign s i j).1.h = upd s.h i (s.h j) := by simp only [assign, release_h, put, acquire_h]
  have hhj : (assign s i j).1.h j = s.h j := by rw [hh]; simp only [upd]; rw [if_neg (Ne.symm hij)]
  have hc := upd_comm s.h (s.h j) .empty hij
  simp only [oldMoveAssign, hhj, moveAssign, hx]
  cases ej : s.h j with
  | absent => exact absurd ej hj
  | empty =>
    rw [ej] at hc
    cases ei : s.h i with
    | has g => by_cases e1 : s.count g = 1 <;> simp [assign, ei, ej, acquire, put, release, hc, e1]
    | _ => simp [assign, ei, ej, acquire, put, release, hc]
  | has f =>
    rw [ej] at hc
    have hf : 0 < s.count f := by have := q.count f; have := cnt_pos (q.lt hj) ej; omega
    cases ei : s.h i with
    | has g =>
      by_cases e : g = f
      · subst e
        have h1 := cnt_upd n s.h g i .empty (q.lt hi)
        have h2 : 0 < cnt n (upd s.h i .empty) g := cnt_pos (q.lt hj) (by simp only [upd]; rw [if_neg (Ne.symm hij), ej])
        have h3 := q.count g
        have h4 : ind (s.h i) g = 1 := by simp [ind, ei]
        have h5 : ind .empty g = 0 := by simp [ind]
        have e1 : ¬ s.count g = 1 := by omega
        have e2 : ¬ s.count g = 0 := by omega
        simp [assign, ei, ej, acquire, put, release, hc, upd_same, upd_twice, e1, e2]
      · have e0 : ∀ x, upd s.count f x g = s.count g := fun x => by simp only [upd]; rw [if_neg e]
        have e3 : ∀ x y, upd (upd s.count f x) g y f = x := fun x y => by simp only [upd]; rw [if_neg (Ne.symm e)]; simp
        have e4 : ∀ x y z, upd (upd (upd s.count f x) g y) f z = upd (upd s.count f z) g y := fun x y z => by
          rw [upd_comm _ _ _ e, upd_twice]
        have e5 : upd s.count f (s.count f) = s.count := upd_self _ _
        have e2 : ¬ s.count f = 0 := by omega
        by_cases e1 : s.count g = 1 <;> simp [assign, ei, ej, acquire, put, release, hc, e0, e1, e2, e3, e4, e5]
    | _ =>
      have e5 : upd s.count f (s.count f) = s.count := upd_self _ _
      have e2 : ¬ s.count f = 0 := by omega
      simp [assign, ei, ej, acquire, put, release, hc, upd_same, upd_twice, e2, e5]

theorem sim {smart : Bool} {n : Nat} {s s' : State} {σ : Spec} {l : Label} {es : List Event} (hl : smart = true ∨ ∀ i, l ≠ .moveAssign i i) (hR : R n s σ) (hs : step smart n s l = some (s', es)) :
    Follows next (R n s') σ es := by
  cases l with
  | make i =>
    simp only [step] at hs; split at hs <;> cases hs
    next h => exact sim_make hR h.1 h.2
  | makeEmpty i =>
    simp only [step] at hs; split at hs <;> cases hs
    next h =>
      have q := hR.q.put h.1
      rw [h.2] at q
      refine follows_plain hR (Same.rfl.put _ _) (q.null (fun _ => by simp) (fun _ => by simp)) ?_
      simp only [rule, hR.ref]; rw [if_pos h.2]; rfl
  | copy i j =>
    simp only [step] at hs; split at hs <;> cases hs
    next h =>
      have q := (hR.q.acquire (j := j)).put (i := i) h.1
      rw [acquire_h, h.2.1] at q
      refine follows_plain hR ((acquire_same s _).put _ _) (q.null (fun _ => by simp) (fun _ => by simp)) ?_
      simp only [rule, hR.ref]; rw [if_pos h.2]; simp only [put, acquire_h]
  | move i j =>
    simp only [step] at hs; split at hs <;> cases hs
    next h =>
      have hij : i ≠ j := fun e => h.2.2 (e ▸ h.2.1)
      have q := (hR.q.put (i := j) (hR.q.lt h.2.2)).put (i := i) h.1
      have hx : (put s j .empty).h i = s.h i := by simp only [put, upd]; rw [if_neg hij]
      rw [hx, h.2.1] at q
      refine follows_plain hR ((Same.rfl.put _ _).put _ _) (q.null (fun _ => by simp) (fun _ => by simp)) ?_
      simp only [rule, hR.ref]; rw [if_pos h.2]; rfl
  | assign i j =>
    simp only [step] at hs; split at hs <;> cases hs
    next h => exact sim_assign hR h.1 (by simp only [rule, hR.ref]; rw [if_pos h])
  | moveAssign i j =>
    simp only [step] at hs; split at hs <;> cases hs
    next h =>
      cases hsm : smart with
      | true => exact sim_moveAssign hR h.1 h.2
      | false =>
        have hij : i ≠ j := by
          rcases hl with h' | h'
          · rw [hsm] at h'; cases h'
          · intro e; exact h' i (by rw [e])
        simp only [Bool.false_eq_true, if_false]
        rw [old_eq hR.q h.1 h.2 hij]
        exact sim_moveAssign hR h.1 h.2
  | drop i =>
    simp only [step] at hs; split at hs <;> cases hs
    next h =>
      have q := (hR.q.null (y := .absent) (fun _ => by simp) (fun _ => by simp)).put (hR.q.lt h)
      refine follows_change hR (Same.rfl.put _ _) q ?_
      simp only [rule, hR.ref]; rw [if_pos h]; rfl
  | call c i =>
    simp only [step] at hs; split at hs
    next hc =>
      split at hs <;> cases hs
      next f e =>
        have hi : i < n := hR.q.lt (by rw [e]; simp)
        have hp := cnt_pos hi e
        have hc' := hR.q.count f
        have hal : s.alive f = true := (hR.q.alive f).2 (by omega)
        have hlt : f < s.fresh := by
          cases Nat.lt_or_ge f s.fresh with
          | inl h => exact h
          | inr h => have := hR.q.fresh f h; omega
        have hg : σ.gone f = false := by
          cases e' : σ.gone f with
          | false => rfl
          | true => have := ((hR.gone f).1 e').2; rw [hal] at this; cases this
        have : next σ (.called c i (some f)) = .ok { σ with run := upd σ.run c (some f) } := by
          simp only [next, hR.due, rule, hR.run, hc, hR.ref, e]; rw [if_pos ⟨trivial, hg⟩]
        simp only [Follows, this]
        refine ⟨hR.size, hR.ref, hR.due, ⟨hR.q.count, hR.q.alive, hR.q.fresh, hR.q.far⟩, hR.made, hR.gone, by rw [hR.run], fun c' f' h' => ?_⟩
        simp only [upd] at h'; split at h'
        · cases h'; exact hlt
        · exact hR.ran c' f' h'
      next e =>
        have : next σ (.called c i none) = .ok σ := by
          simp only [next, hR.due, rule, hR.run, hc, hR.ref, e]
        simp only [Follows, this]; exact hR
    next => cases hs
  | fin c b =>
    simp only [step] at hs; split at hs
    next f e =>
      have hlt := hR.ran c f e
      split at hs <;> cases hs
      next ha =>
        have hg : σ.gone f = false := by
          cases e' : σ.gone f with
          | false => rfl
          | true => have := ((hR.gone f).1 e').2; rw [ha] at this; cases this
        have : next σ (.ended c b) = .ok { σ with run := upd σ.run c none } := by
          simp only [next, hR.due, rule, hR.run, e, hg]; simp
        simp only [Follows, this]
        refine ⟨hR.size, hR.ref, hR.due, ⟨hR.q.count, hR.q.alive, hR.q.fresh, hR.q.far⟩, hR.made, hR.gone, by rw [hR.run], fun c' f' h' => ?_⟩
        simp only [upd] at h'; split at h'
        · cases h'
        · exact hR.ran c' f' h'
      next ha =>
        have hg : σ.gone f = true := (hR.gone f).2 ⟨hlt, by simpa using ha⟩
        have : next σ (.stale c) = .undefined := by
          simp only [next, hR.due, rule, hR.run, e, hg]; simp
        simp only [Follows, this]
    next => cases hs

theorem gone_once {σ σ' : Spec} {f : Nat} (h : next σ (.gone f) = .ok σ') : σ.gone f = false ∧ σ'.gone f = true := by
  simp only [next] at h
  split at h
  · simp only [rule] at h; cases h
  · split at h <;> cases h
    next g e => obtain ⟨e1, e2⟩ := e; cases e1; exact ⟨e2, upd_same _ _ _⟩

theorem gone_step {σ σ' : Spec} {e : Event} (h : next σ e = .ok σ') (f : Nat) : σ'.gone f = true ↔ σ.gone f = true ∨ e = .gone f := by
  simp only [next] at h
  split at h
  · cases e <;> simp only [rule, Spec.change] at h <;> (repeat' split at h) <;> cases h <;> simp
  · split at h <;> cases h
    next g _ e' =>
      obtain ⟨e1, e2⟩ := e'
      subst e1
      simp only [upd]
      by_cases eg : f = g
      · subst eg; simp
      · simp [eg, Ne.symm eg]

theorem made_step {σ σ' : Spec} {e : Event} (h : next σ e = .ok σ') (f : Nat) : σ'.made f = true ↔ σ.made f = true ∨ ∃ i, e = .made i f := by
  simp only [next] at h
  split at h
  · cases e <;> simp only [rule, Spec.change] at h <;> (repeat' split at h) <;> cases h <;> simp [upd]
    next i g _ =>
      by_cases eg : f = g
      · subst eg; simp
      · simp [eg, Ne.symm eg]
  · split at h <;> cases h
    next e' => obtain ⟨e1, -⟩ := e'; subst e1; simp

end Verif.Work
