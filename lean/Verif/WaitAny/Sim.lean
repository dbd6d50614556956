import Verif.WaitAny.Spec
/-! # The model of wait_for_any follows its specification -/

set_option linter.unusedSimpArgs false

namespace Verif.WaitAny

/-- The value of `future_count` after the futures `fs` have been added. -/
def count (seq : Bool) (fs : List (Option Nat)) : Nat := if seq then (fs.filterMap id).length else fs.length

/-- The waiters registered for `fs`, beginning with index `n`. -/
def waiters (seq : Bool) (n : Nat) : List (Option Nat) → List (Nat × Nat)
  | [] => []
  | none :: fs => waiters seq (if seq then n else n + 1) fs
  | some i :: fs => (i, n) :: waiters seq (n + 1) fs

theorem count_append_none (seq : Bool) (fs : List (Option Nat)) : count seq (fs ++ [none]) = if seq then count seq fs else count seq fs + 1 := by
  cases seq <;> simp [count]

theorem count_append_some (seq : Bool) (fs : List (Option Nat)) (i : Nat) : count seq (fs ++ [some i]) = count seq fs + 1 := by
  cases seq <;> simp [count]

theorem count_cons (seq : Bool) (x : Option Nat) (fs : List (Option Nat)) : count seq (x :: fs) = (if seq = true ∧ x = none then 0 else 1) + count seq fs := by
  cases seq <;> cases x <;> simp [count, List.filterMap_cons] <;> omega

theorem waiters_append (seq : Bool) (n : Nat) (fs gs : List (Option Nat)) : waiters seq n (fs ++ gs) = waiters seq n fs ++ waiters seq (n + count seq fs) gs := by
  induction fs generalizing n with
  | nil => simp [waiters, count]
  | cons x fs ih =>
    rw [count_cons]
    cases x with
    | none =>
      simp only [List.cons_append, waiters, ih]
      cases seq <;> simp [Nat.add_assoc, Nat.add_comm, Nat.add_left_comm]
    | some i =>
      simp only [List.cons_append, waiters, ih]
      simp [Nat.add_assoc]

/-- What the index of a waiter means. -/
theorem right_of_waiter {ready : Nat → Bool} {seq : Bool} {fs : List (Option Nat)} {i k : Nat} (h : (i, k) ∈ waiters seq 0 fs) (hr : ready i = true) : right false ready seq fs k = true := by
  have h1 : ∀ (fs : List (Option Nat)) (n : Nat), (i, k) ∈ waiters false n fs → n ≤ k ∧ fs[k - n]? = some (some i) := by
    intro fs
    induction fs with
    | nil => intro n h; cases h
    | cons x fs ih =>
      intro n h
      cases x with
      | none =>
        simp only [waiters, Bool.false_eq_true, if_false] at h
        obtain ⟨h1, h2⟩ := ih _ h
        refine ⟨by omega, ?_⟩
        rw [show k - n = (k - (n + 1)) + 1 by omega]
        simpa using h2
      | some j =>
        simp only [waiters, List.mem_cons, Prod.mk.injEq] at h
        rcases h with ⟨rfl, rfl⟩ | h
        · simp
        · obtain ⟨h1, h2⟩ := ih _ h
          refine ⟨by omega, ?_⟩
          rw [show k - n = (k - (n + 1)) + 1 by omega]
          simpa using h2
  have h2 : ∀ (fs : List (Option Nat)) (n : Nat), (i, k) ∈ waiters true n fs → n ≤ k ∧ (fs.filterMap id)[k - n]? = some i := by
    intro fs
    induction fs with
    | nil => intro n h; cases h
    | cons x fs ih =>
      intro n h
      cases x with
      | none =>
        simp only [waiters, if_true] at h
        simpa [List.filterMap_cons] using ih _ h
      | some j =>
        simp only [waiters, List.mem_cons, Prod.mk.injEq] at h
        rcases h with ⟨rfl, rfl⟩ | h
        · simp [List.filterMap_cons]
        · obtain ⟨h1, h2⟩ := ih _ h
          refine ⟨by omega, ?_⟩
          rw [show k - n = (k - (n + 1)) + 1 by omega]
          simpa [List.filterMap_cons] using h2
  unfold right
  rw [if_neg (by rintro rfl; cases h)]
  cases seq with
  | false =>
    have := (h1 fs 0 h).2
    simp only [Nat.sub_zero] at this
    simp [this, hr]
  | true =>
    have := (h2 fs 0 h).2
    simp only [Nat.sub_zero] at this
    simp [this, hr]

/-- Without invalid futures the two ways of counting agree. -/
theorem right_strict {ready : Nat → Bool} {seq : Bool} {fs : List (Option Nat)} {k : Nat} (hv : seq = true → none ∉ fs) (h : right false ready seq fs k = true) : right true ready seq fs k = true := by
  unfold right at *
  cases seq with
  | false => simpa using h
  | true =>
    have hm : ∀ (fs : List (Option Nat)), none ∉ fs → ∀ k : Nat, fs[k]? = ((fs.filterMap id)[k]?).map some := by
      intro fs
      induction fs with
      | nil => simp
      | cons x fs ih =>
        intro hn k
        cases x with
        | none => simp at hn
        | some i =>
          have := ih (fun hm => hn (List.mem_cons_of_mem _ hm))
          cases k with
          | zero => simp [List.filterMap_cons]
          | succ k => simp [List.filterMap_cons, this k]
    split at h
    · rename_i hf; subst hf; simpa using h
    · rename_i hf
      rw [if_neg hf]
      simp only [Bool.true_or, if_true]
      rw [hm fs (hv rfl) k]
      simp only [Bool.not_true, Bool.or_self, Bool.false_eq_true, if_false] at h
      cases hk : (fs.filterMap id)[k]? with
      | none => rw [hk] at h; cases h
      | some i => rw [hk] at h; simpa using h

/-! ## What a thread holds, and where it is registered -/

def held : PC → List Nat
  | .locking ws k => (ws.take k).map Prod.fst
  | .checking ws => ws.map Prod.fst
  | .pausing ws => ws.map Prod.fst
  | .dropping ws => ws.map Prod.fst
  | _ => []

def registered : PC → List Nat
  | .idle => []
  | .adding _ _ ws => ws.map Prod.fst
  | .locking ws _ => ws.map Prod.fst
  | .checking ws => ws.map Prod.fst
  | .pausing ws => ws.map Prod.fst
  | .asleep ws => ws.map Prod.fst
  | .woken ws => ws.map Prod.fst
  | .leaving ws _ => ws.map Prod.fst
  | .wokenI ws => ws.map Prod.fst
  | .dropping ws => ws.map Prod.fst
  | .leavingI ws => ws.map Prod.fst

/-- The exception has been thrown. -/
def throwing : PC → Bool
  | .wokenI _ | .dropping _ | .leavingI _ => true
  | _ => false

def PcOk (done : Nat → Bool) (seq : Bool) (fs : List (Option Nat)) : PC → Prop
  | .idle => True
  | .adding rest n ws => ∃ pre, fs = pre ++ rest ∧ n = count seq pre ∧ ws = waiters seq 0 pre
  | .locking ws k => ws = waiters seq 0 fs ∧ k ≤ ws.length
  | .checking ws => ws = waiters seq 0 fs
  | .pausing ws => ws = waiters seq 0 fs ∧ ∀ w ∈ ws, done w.1 = false
  | .asleep ws => ws = waiters seq 0 fs ∧ ∀ w ∈ ws, done w.1 = false
  | .woken ws => ws = waiters seq 0 fs
  | .leaving _ n => ∃ i, (i, n) ∈ waiters seq 0 fs ∧ done i = true
  | .wokenI ws => ws = waiters seq 0 fs
  | .dropping ws => ws = waiters seq 0 fs
  | .leavingI _ => True

structure Rel (s : State) (σ : Spec) : Prop where
  ready : σ.ready = s.done
  call : ∀ t, σ.call t = if s.pc t = .idle then none else some (s.arg t)
  pcs : ∀ t, PcOk s.done (s.arg t).1 (s.arg t).2 (s.pc t)
  own : ∀ t i, s.own i = some t ↔ i ∈ held (s.pc t)
  reg : ∀ t i, (s.reg i).count t = (registered (s.pc t)).count i
  req : ∀ t, (if throwing (s.pc t) then 1 else 0) + (if s.intr t then 1 else 0) ≤ σ.req t

theorem rel_init : Rel init Spec.init := by
  constructor <;> simp [init, Spec.init, PcOk, held, registered, throwing]

theorem PcOk.mono {done done' : Nat → Bool} {seq : Bool} {fs : List (Option Nat)} {p : PC} (hd : ∀ i, done i = true → done' i = true) (ha : ∀ ws, p ≠ .asleep ws) (hp : ∀ ws, p = .pausing ws → ∀ w ∈ ws, done' w.1 = done w.1) (h : PcOk done seq fs p) : PcOk done' seq fs p := by
  cases p with
  | asleep ws => exact absurd rfl (ha ws)
  | leaving ws n => obtain ⟨i, h1, h2⟩ := h; exact ⟨i, h1, hd i h2⟩
  | pausing ws => exact ⟨h.1, fun w hw => by rw [hp ws rfl w hw]; exact h.2 w hw⟩
  | _ => exact h

theorem notify_idle (pc : Nat → PC) (ts : List Nat) (t : Nat) : notify pc ts t = .idle ↔ pc t = .idle := by
  unfold notify
  split
  · rename_i ws h; split <;> simp [h]
  · rfl

theorem notify_held (pc : Nat → PC) (ts : List Nat) (t : Nat) : held (notify pc ts t) = held (pc t) := by
  unfold notify
  split
  · rename_i ws h; split <;> simp [h, held]
  · rfl

theorem notify_registered (pc : Nat → PC) (ts : List Nat) (t : Nat) : registered (notify pc ts t) = registered (pc t) := by
  unfold notify
  split
  · rename_i ws h; split <;> simp [h, registered]
  · rfl

theorem notify_throwing (pc : Nat → PC) (ts : List Nat) (t : Nat) : throwing (notify pc ts t) = throwing (pc t) := by
  unfold notify
  split
  · rename_i ws h; split <;> simp [h, throwing]
  · rfl

/-- A step of a call that is not its end. -/
theorem Rel.move {s : State} {σ : Spec} (h : Rel s σ) (t : Nat) (p : PC) (own : Nat → Option Nat) (reg : Nat → List Nat) (hi : s.pc t ≠ .idle) (hp : p ≠ .idle)
    (hok : PcOk s.done (s.arg t).1 (s.arg t).2 p) (ho : ∀ u i, u ≠ t → (own i = some u ↔ s.own i = some u)) (ho' : ∀ i, own i = some t ↔ i ∈ held p)
    (hr : ∀ u i, u ≠ t → (reg i).count u = (s.reg i).count u) (hr' : ∀ i, (reg i).count t = (registered p).count i) (ht : throwing p = throwing (s.pc t)) :
    Rel { s with own := own, reg := reg, pc := upd s.pc t p } σ := by
  refine { ready := h.ready, call := ?_, pcs := ?_, own := ?_, reg := ?_, req := ?_ }
  · intro u
    rw [h.call u]
    simp only [upd_apply]
    by_cases hu : u = t
    · subst hu; simp [hi, hp]
    · simp [hu]
  · intro u
    simp only [upd_apply]
    by_cases hu : u = t
    · subst hu; simpa using hok
    · simpa [hu] using h.pcs u
  · intro u i
    simp only [upd_apply]
    by_cases hu : u = t
    · subst hu; simpa using ho' i
    · simpa [hu, ho u i hu] using h.own u i
  · intro u i
    simp only [upd_apply]
    by_cases hu : u = t
    · subst hu; simpa using hr' i
    · simpa [hu, hr u i hu] using h.reg u i
  · intro u
    simp only [upd_apply]
    by_cases hu : u = t
    · subst hu; simpa [ht] using h.req u
    · simpa [hu] using h.req u

/-- A step that throws the exception. -/
theorem Rel.throw {s : State} {σ : Spec} (h : Rel s σ) (t : Nat) (p : PC) (hi : s.pc t ≠ .idle) (hp : p ≠ .idle)
    (hok : PcOk s.done (s.arg t).1 (s.arg t).2 p) (ho : held p = held (s.pc t)) (hr : registered p = registered (s.pc t)) (ht : throwing (s.pc t) = false) (hb : s.intr t = true) :
    Rel { s with intr := upd s.intr t false, pc := upd s.pc t p } σ := by
  refine { ready := h.ready, call := ?_, pcs := ?_, own := ?_, reg := ?_, req := ?_ }
  · intro u
    rw [h.call u]
    simp only [upd_apply]
    by_cases hu : u = t
    · subst hu; simp [hi, hp]
    · simp [hu]
  · intro u
    simp only [upd_apply]
    by_cases hu : u = t
    · subst hu; simpa using hok
    · simpa [hu] using h.pcs u
  · intro u i
    simp only [upd_apply]
    by_cases hu : u = t
    · subst hu; simpa [ho] using h.own u i
    · simpa [hu] using h.own u i
  · intro u i
    simp only [upd_apply]
    by_cases hu : u = t
    · subst hu; simpa [hr] using h.reg u i
    · simpa [hu] using h.reg u i
  · intro u
    simp only [upd_apply]
    by_cases hu : u = t
    · subst hu
      have := h.req u
      rw [ht, hb] at this
      simp only [if_true, Bool.false_eq_true, if_false] at this ⊢
      split <;> omega
    · simpa [hu] using h.req u

theorem follows_nil {strict : Bool} {P : Spec → Prop} {σ : Spec} (h : P σ) : Follows (next strict) P σ [] := by
  simpa [Follows] using h

theorem sim_go {s s' : State} {es : List Event} {σ : Spec} {t : Nat} (h : Rel s σ) (hs : go s t (s.pc t) = some (s', es)) : Follows (next false) (Rel s') σ es := by
  have hown := h.own t
  have hreg := h.reg t
  have hpc := h.pcs t
  have hcall := h.call t
  cases hp : s.pc t with
  | idle => rw [hp] at hs; cases hs
  | asleep ws =>
    rw [hp] at hs hpc
    simp only [go] at hs
    split at hs <;> cases hs
    rename_i hb
    apply follows_nil
    exact h.throw t _ (by rw [hp]; simp) (by simp) hpc.1 (by rw [hp]; rfl) (by rw [hp]; rfl) (by rw [hp]; rfl) hb
  | wokenI ws =>
    rw [hp] at hs hown hreg hpc
    simp only [go] at hs
    split at hs <;> cases hs
    rename_i hfree
    apply follows_nil
    refine h.move t _ _ s.reg (by rw [hp]; simp) (by simp) hpc ?_ ?_ (by simp) (by simpa [registered] using hreg) (by rw [hp]; rfl)
    · intro u i hu
      simp only [acquire]
      split
      · rename_i hi
        obtain ⟨w, hw, rfl⟩ := List.mem_map.mp hi
        simp [hfree w hw, Ne.symm hu]
      · rfl
    · intro i
      have := hown i
      simp only [acquire, held] at *
      split
      · simp_all
      · simp_all
  | dropping ws =>
    rw [hp] at hs hown hreg hpc
    simp only [go] at hs; cases hs
    have hrel : ∀ u i, u ≠ t → (release s.own t i = some u ↔ s.own i = some u) := by
      intro u i hu
      simp only [release]
      split
      · rename_i h'; simp [h', Ne.symm hu]
      · rfl
    have hrel' : ∀ i, release s.own t i ≠ some t := by
      intro i
      simp only [release]
      split
      · simp
      · assumption
    apply follows_nil
    exact h.move t _ _ s.reg (by rw [hp]; simp) (by simp) trivial hrel (by simpa [held] using hrel') (by simp) (by simpa [registered] using hreg) (by rw [hp]; rfl)
  | leavingI ws =>
    rw [hp] at hs hown hreg hpc
    rcases ws with _ | ⟨⟨i, k⟩, ws⟩
    · simp only [go] at hs; cases hs
      simp only [hp, reduceCtorEq, if_false] at hcall
      have hq := h.req t
      rw [hp] at hq
      simp only [throwing, if_true] at hq
      have hq' : 0 < σ.req t := by omega
      simp only [Follows, next]
      rw [if_pos ⟨by rw [hcall]; simp, hq'⟩]
      refine { ready := h.ready, call := ?_, pcs := ?_, own := ?_, reg := ?_, req := ?_ }
      · intro u
        simp only [upd_apply]
        by_cases hu : u = t
        · simp [hu]
        · simp [hu, h.call u]
      · intro u
        simp only [upd_apply]
        by_cases hu : u = t
        · simp [hu, PcOk]
        · simpa [hu] using h.pcs u
      · intro u i
        simp only [upd_apply]
        by_cases hu : u = t
        · subst hu; simpa [held] using hown i
        · simpa [hu] using h.own u i
      · intro u i
        simp only [upd_apply]
        by_cases hu : u = t
        · subst hu; simpa [registered] using hreg i
        · simpa [hu] using h.reg u i
      · intro u
        simp only [upd_apply]
        by_cases hu : u = t
        · subst hu; simp only [if_true, throwing, Bool.false_eq_true, if_false]; omega
        · simpa [hu] using h.req u
    · simp only [go] at hs
      split at hs <;> cases hs
      rename_i hfree
      apply follows_nil
      refine h.move t _ s.own (upd s.reg i ((s.reg i).erase t)) (by rw [hp]; simp) (by simp) trivial (by simp) (by simpa [held] using hown) ?_ ?_ (by rw [hp]; rfl)
      · intro u j hu
        simp only [upd_apply]
        split
        · rename_i hj; subst hj; rw [List.count_erase_of_ne hu]
        · rfl
      · intro j
        have := hreg j
        simp only [registered, upd_apply, List.map_cons] at *
        by_cases hj : j = i
        · subst hj; simp [List.count_erase_self, this]
        · rw [if_neg hj, this, List.count_cons_of_ne (fun e => hj e.symm)]
  | adding rest n ws =>
    rw [hp] at hs hown hreg hpc
    obtain ⟨pre, h1, h2, h3⟩ := hpc
    rcases rest with _ | ⟨_ | i, rest⟩
    · simp only [go] at hs; cases hs
      apply follows_nil
      refine h.move t _ s.own s.reg (by rw [hp]; simp) (by simp) ?_ (by simp) (by simpa [held] using hown) (by simp) (by simpa [registered] using hreg) (by rw [hp]; rfl)
      refine ⟨?_, Nat.zero_le _⟩
      rw [h3, h1, List.append_nil]
    · simp only [go] at hs; cases hs
      apply follows_nil
      refine h.move t _ s.own s.reg (by rw [hp]; simp) (by simp) ?_ (by simp) (by simpa [held] using hown) (by simp) (by simpa [registered] using hreg) (by rw [hp]; rfl)
      refine ⟨pre ++ [none], by simp [h1], ?_, ?_⟩
      · rw [count_append_none, h2]
      · rw [waiters_append, h3]; simp [waiters]
    · simp only [go] at hs
      split at hs <;> cases hs
      rename_i hfree
      apply follows_nil
      refine h.move t _ s.own (upd s.reg i (t :: s.reg i)) (by rw [hp]; simp) (by simp) ?_ (by simp) (by simpa [held] using hown) ?_ ?_ (by rw [hp]; rfl)
      · refine ⟨pre ++ [some i], by simp [h1], ?_, ?_⟩
        · rw [count_append_some, h2]
        · rw [waiters_append, h3]; simp [waiters, h2]
      · intro u j hu
        simp only [upd_apply]
        split
        · rename_i hj; subst hj; rw [List.count_cons_of_ne (fun e => hu e.symm)]
        · rfl
      · intro j
        have := hreg j
        simp only [registered, upd_apply, List.map_append, List.map_cons, List.map_nil, List.count_append] at *
        by_cases hj : j = i
        · subst hj; simp [this]
        · rw [if_neg hj, this, List.count_cons_of_ne (fun e => hj e.symm)]; simp
  | locking ws k =>
    rw [hp] at hs hown hreg hpc
    obtain ⟨h1, h2⟩ := hpc
    simp only [go] at hs
    cases hk : ws[k]? with
    | none =>
      simp only [hk] at hs; cases hs
      apply follows_nil
      refine h.move t _ s.own s.reg (by rw [hp]; simp) (by simp) h1 (by simp) ?_ (by simp) (by simpa [registered] using hreg) (by rw [hp]; rfl)
      intro i
      have := hown i
      simp only [held] at *
      rw [this, List.take_of_length_le (by simpa using hk)]
    | some w =>
      obtain ⟨i, n⟩ := w
      simp only [hk] at hs
      split at hs <;> cases hs
      rename_i hfree
      apply follows_nil
      have hkl : k < ws.length := by
        rcases Nat.lt_or_ge k ws.length with h | h
        · exact h
        · rw [List.getElem?_eq_none h] at hk; cases hk
      refine h.move t _ (upd s.own i (some t)) s.reg (by rw [hp]; simp) (by simp) ⟨h1, hkl⟩ ?_ ?_ (by simp) (by simpa [registered] using hreg) (by rw [hp]; rfl)
      · intro u j hu
        simp only [upd_apply]
        split
        · rename_i hj; subst hj; simp [hfree, Ne.symm hu]
        · rfl
      · intro j
        have := hown j
        simp only [held, List.take_add_one, hk, upd_apply, List.map_append, List.mem_append] at *
        by_cases hj : j = i
        · subst hj; simp
        · rw [if_neg hj, this]; simp [hj]
  | checking ws =>
    rw [hp] at hs hown hreg hpc
    simp only [go] at hs
    have hrel : ∀ u i, u ≠ t → (release s.own t i = some u ↔ s.own i = some u) := by
      intro u i hu
      simp only [release]
      split
      · rename_i h'; simp [h', Ne.symm hu]
      · rfl
    have hrel' : ∀ i, release s.own t i ≠ some t := by
      intro i
      simp only [release]
      split
      · simp
      · assumption
    cases hf : ws.find? (fun w => s.done w.1) with
    | none =>
      simp only [hf] at hs; cases hs
      apply follows_nil
      refine h.move t _ s.own s.reg (by rw [hp]; simp) (by simp) ⟨hpc, ?_⟩ (by simp) (by simpa [held] using hown) (by simp) (by simpa [registered] using hreg) (by rw [hp]; rfl)
      intro w hw
      simpa using List.find?_eq_none.mp hf w hw
    | some w =>
      obtain ⟨i, n⟩ := w
      simp only [hf] at hs; cases hs
      apply follows_nil
      refine h.move t _ _ s.reg (by rw [hp]; simp) (by simp) ⟨i, ?_, ?_⟩ hrel (by simpa [held] using hrel') (by simp) (by simpa [registered] using hreg) (by rw [hp]; rfl)
      · rw [← hpc]; exact List.mem_of_find?_eq_some hf
      · simpa using List.find?_some hf
  | pausing ws =>
    rw [hp] at hs hown hreg hpc
    simp only [go] at hs
    split at hs
    · rename_i hb
      cases hs
      apply follows_nil
      exact h.throw t _ (by rw [hp]; simp) (by simp) hpc.1 (by rw [hp]; rfl) (by rw [hp]; rfl) (by rw [hp]; rfl) hb
    cases hs
    have hrel : ∀ u i, u ≠ t → (release s.own t i = some u ↔ s.own i = some u) := by
      intro u i hu
      simp only [release]
      split
      · rename_i h'; simp [h', Ne.symm hu]
      · rfl
    have hrel' : ∀ i, release s.own t i ≠ some t := by
      intro i
      simp only [release]
      split
      · simp
      · assumption
    apply follows_nil
    exact h.move t _ _ s.reg (by rw [hp]; simp) (by simp) hpc hrel (by simpa [held] using hrel') (by simp) (by simpa [registered] using hreg) (by rw [hp]; rfl)
  | woken ws =>
    rw [hp] at hs hown hreg hpc
    simp only [go] at hs
    split at hs
    · rename_i hb
      cases hs
      apply follows_nil
      exact h.throw t _ (by rw [hp]; simp) (by simp) hpc (by rw [hp]; rfl) (by rw [hp]; rfl) (by rw [hp]; rfl) hb
    split at hs <;> cases hs
    rename_i hfree
    apply follows_nil
    refine h.move t _ _ s.reg (by rw [hp]; simp) (by simp) hpc ?_ ?_ (by simp) (by simpa [registered] using hreg) (by rw [hp]; rfl)
    · intro u i hu
      simp only [acquire]
      split
      · rename_i hi
        obtain ⟨w, hw, rfl⟩ := List.mem_map.mp hi
        simp [hfree w hw, Ne.symm hu]
      · rfl
    · intro i
      have := hown i
      simp only [acquire, held] at *
      split
      · simp_all
      · simp_all
  | leaving ws n =>
    rw [hp] at hs hown hreg hpc
    rcases ws with _ | ⟨⟨i, k⟩, ws⟩
    · simp only [go] at hs; cases hs
      obtain ⟨i, h1, h2⟩ := hpc
      have hr := right_of_waiter (ready := σ.ready) h1 (by rw [h.ready]; exact h2)
      simp only [hp, reduceCtorEq, if_false] at hcall
      simp only [Follows, next, hcall]
      rw [if_pos hr]
      refine { ready := h.ready, call := ?_, pcs := ?_, own := ?_, reg := ?_, req := ?_ }
      · intro u
        simp only [upd_apply]
        by_cases hu : u = t
        · simp [hu]
        · simp [hu, h.call u]
      · intro u
        simp only [upd_apply]
        by_cases hu : u = t
        · simp [hu, PcOk]
        · simpa [hu] using h.pcs u
      · intro u i
        simp only [upd_apply]
        by_cases hu : u = t
        · subst hu; simpa [held] using hown i
        · simpa [hu] using h.own u i
      · intro u i
        simp only [upd_apply]
        by_cases hu : u = t
        · subst hu; simpa [registered] using hreg i
        · simpa [hu] using h.reg u i
      · intro u
        have := h.req u
        simp only [upd_apply]
        by_cases hu : u = t
        · subst hu; rw [hp] at this; simpa [throwing] using this
        · simpa [hu] using this
    · simp only [go] at hs
      split at hs <;> cases hs
      rename_i hfree
      apply follows_nil
      refine h.move t _ s.own (upd s.reg i ((s.reg i).erase t)) (by rw [hp]; simp) (by simp) hpc (by simp) (by simpa [held] using hown) ?_ ?_ (by rw [hp]; rfl)
      · intro u j hu
        simp only [upd_apply]
        split
        · rename_i hj; subst hj; rw [List.count_erase_of_ne hu]
        · rfl
      · intro j
        have := hreg j
        simp only [registered, upd_apply, List.map_cons] at *
        by_cases hj : j = i
        · subst hj; simp [List.count_erase_self, this]
        · rw [if_neg hj, this, List.count_cons_of_ne (fun e => hj e.symm)]

theorem sim {s s' : State} {l : Label} {es : List Event} {σ : Spec} (h : Rel s σ) (hs : step s l = some (s', es)) : Follows (next false) (Rel s') σ es := by
  cases l with
  | go t => exact sim_go h hs
  | interrupt t =>
    simp only [step] at hs
    cases hs
    simp only [Follows, next]
    refine { h with req := ?_ }
    intro u
    have := h.req u
    simp only [upd_apply]
    by_cases hu : u = t
    · subst hu; simp only [if_true]; split at this <;> split at this <;> simp_all <;> omega
    · simpa [hu] using this
  | wake t =>
    simp only [step] at hs
    split at hs <;> cases hs
    rename_i ws hp
    apply follows_nil
    have h1 := h.pcs t
    have h2 := h.own t
    have h3 := h.reg t
    rw [hp] at h1 h2 h3
    exact h.move t _ s.own s.reg (by rw [hp]; simp) (by simp) h1.1 (by simp) (by simpa [held] using h2) (by simp) (by simpa [registered] using h3) (by rw [hp]; rfl)
  | finish i =>
    simp only [step] at hs
    split at hs <;> cases hs
    rename_i hc
    simp only [Follows, next, h.ready, hc.2]
    rw [if_neg (by simp)]
    refine { ready := rfl, call := ?_, pcs := ?_, own := ?_, reg := ?_, req := ?_ }
    · intro t
      rw [h.call t]
      simp only [notify_idle]
    · intro t
      have h1 := h.pcs t
      simp only [notify]
      split
      · rename_i ws hp
        rw [hp] at h1
        split
        · exact h1.1
        · rename_i hn
          refine ⟨h1.1, fun w hw => ?_⟩
          simp only [upd_apply]
          split
          · rename_i hwi
            exfalso
            have h2 := h.reg t i
            rw [hp, List.count_eq_zero.mpr hn] at h2
            have h3 := List.count_eq_zero.mp h2.symm
            exact h3 (by rw [← hwi]; exact List.mem_map.mpr ⟨w, hw, rfl⟩)
          · exact h1.2 w hw
      · rename_i hp
        refine h1.mono ?_ (fun ws e => hp ws e) ?_
        · intro j hj
          simp only [upd_apply]
          split <;> simp [hj]
        · intro ws e w hw
          simp only [upd_apply]
          rw [if_neg]
          rintro rfl
          have := (h.own t w.1).mpr (by rw [e]; exact List.mem_map.mpr ⟨w, hw, rfl⟩)
          rw [hc.1] at this
          cases this
    · intro t i; simp only [notify_held]; exact h.own t i
    · intro t i; simp only [notify_registered]; exact h.reg t i
    · intro t; simp only [notify_throwing]; exact h.req t
  | call t seq fs =>
    simp only [step] at hs
    split at hs
    · rename_i hp
      have hcall := h.call t
      simp only [hp, if_true] at hcall
      split at hs
      · rename_i hf
        split at hs <;> cases hs
        subst hf
        simp only [Follows, next, hcall, upd_apply, if_true]
        rw [if_pos (by simp [right])]
        refine { h with call := ?_ }
        intro u
        simp only [upd_apply]
        by_cases hu : u = t
        · simp [hu, hp]
        · simp [hu, h.call u]
      · cases hs
        simp only [Follows, next, hcall, if_true]
        have h2 := h.own t
        have h3 := h.reg t
        rw [hp] at h2 h3
        refine { ready := h.ready, call := ?_, pcs := ?_, own := ?_, reg := ?_, req := ?_ }
        · intro u
          simp only [upd_apply]
          by_cases hu : u = t
          · simp [hu]
          · simp [hu, h.call u]
        · intro u
          simp only [upd_apply]
          by_cases hu : u = t
          · subst hu; simp only [if_true]; exact ⟨[], by simp, by simp [count], by simp [waiters]⟩
          · simpa [hu] using h.pcs u
        · intro u i
          simp only [upd_apply]
          by_cases hu : u = t
          · subst hu; simpa [held] using h2 i
          · simpa [hu] using h.own u i
        · intro u i
          simp only [upd_apply]
          by_cases hu : u = t
          · subst hu; simpa [registered] using h3 i
          · simpa [hu] using h.reg u i
        · intro u
          have := h.req u
          simp only [upd_apply]
          by_cases hu : u = t
          · subst hu; rw [hp] at this; simpa [throwing] using this
          · simpa [hu] using this
    · cases hs

end Verif.WaitAny
