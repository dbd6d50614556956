import Verif.WaitAny.Sim
/-! # Calls of wait_for_any that lock in a common order come to an end -/

set_option linter.unusedSimpArgs false

namespace Verif.WaitAny

/-- How much is left to do before the call ends or goes to sleep; `b`: interruption has been requested. -/
def left (b : Bool) : PC → Nat
  | .idle => 0
  | .asleep ws => if b then ws.length + 4 else 0
  | .leaving ws _ => ws.length + 1
  | .pausing ws => if b then ws.length + 3 else 1
  | .checking ws => ws.length + 4
  | .woken ws => ws.length + 5
  | .locking ws k => (ws.length - k) + ws.length + 5
  | .adding rest _ ws => 2 * ws.length + 3 * rest.length + 6
  | .leavingI ws => ws.length + 1
  | .dropping ws => ws.length + 2
  | .wokenI ws => ws.length + 3

/-- A step of a call changes nothing of the other calls, and it leaves less to do. -/
theorem go_left {s s' : State} {t : Nat} {es : List Event} (h : go s t (s.pc t) = some (s', es)) :
    s'.done = s.done ∧ s'.arg = s.arg ∧ (∃ p b, s'.pc = upd s.pc t p ∧ s'.intr = upd s.intr t b ∧ left b p < left (s.intr t) (s.pc t)) := by
  have hid : s.intr = upd s.intr t (s.intr t) := by funext u; simp only [upd_apply]; split <;> simp_all
  cases hp : s.pc t with
  | idle => rw [hp] at h; cases h
  | asleep ws =>
    rw [hp] at h
    simp only [go] at h
    split at h <;> cases h
    rename_i hb
    exact ⟨rfl, rfl, _, _, rfl, rfl, by simp only [left, hb, if_true]; omega⟩
  | adding rest n ws =>
    rw [hp] at h
    rcases rest with _ | ⟨_ | i, rest⟩
    · simp only [go] at h; cases h; exact ⟨rfl, rfl, _, _, rfl, hid, by simp only [left, List.length_nil]; omega⟩
    · simp only [go] at h; cases h; exact ⟨rfl, rfl, _, _, rfl, hid, by simp only [left, List.length_cons]; omega⟩
    · simp only [go] at h
      split at h <;> cases h
      exact ⟨rfl, rfl, _, _, rfl, hid, by simp only [left, List.length_append, List.length_cons, List.length_nil]; omega⟩
  | locking ws k =>
    rw [hp] at h
    simp only [go] at h
    cases hk : ws[k]? with
    | none =>
      simp only [hk] at h; cases h
      exact ⟨rfl, rfl, _, _, rfl, hid, by simp only [left]; omega⟩
    | some w =>
      have hl : k < ws.length := by
        rcases Nat.lt_or_ge k ws.length with h | h
        · exact h
        · rw [List.getElem?_eq_none h] at hk; cases hk
      simp only [hk] at h
      split at h <;> cases h
      exact ⟨rfl, rfl, _, _, rfl, hid, by simp only [left]; omega⟩
  | checking ws =>
    rw [hp] at h
    simp only [go] at h
    split at h <;> cases h
    · exact ⟨rfl, rfl, _, _, rfl, hid, by simp only [left]; omega⟩
    · exact ⟨rfl, rfl, _, _, rfl, hid, by simp only [left]; split <;> omega⟩
  | pausing ws =>
    rw [hp] at h
    simp only [go] at h
    split at h <;> cases h
    · rename_i hb; exact ⟨rfl, rfl, _, _, rfl, rfl, by simp only [left, hb, if_true]; omega⟩
    · rename_i hb; exact ⟨rfl, rfl, _, _, rfl, hid, by simp only [left, hb]; simp⟩
  | woken ws =>
    rw [hp] at h
    simp only [go] at h
    split at h
    · cases h
      exact ⟨rfl, rfl, _, _, rfl, rfl, by simp only [left]; omega⟩
    split at h <;> cases h
    exact ⟨rfl, rfl, _, _, rfl, hid, by simp only [left]; omega⟩
  | leaving ws n =>
    rw [hp] at h
    rcases ws with _ | ⟨⟨i, k⟩, ws⟩
    · simp only [go] at h; cases h; exact ⟨rfl, rfl, _, _, rfl, hid, by simp [left]⟩
    · simp only [go] at h
      split at h <;> cases h
      exact ⟨rfl, rfl, _, _, rfl, hid, by simp [left]⟩
  | wokenI ws =>
    rw [hp] at h
    simp only [go] at h
    split at h <;> cases h
    exact ⟨rfl, rfl, _, _, rfl, hid, by simp only [left]; omega⟩
  | dropping ws => rw [hp] at h; simp only [go] at h; cases h; exact ⟨rfl, rfl, _, _, rfl, hid, by simp [left]⟩
  | leavingI ws =>
    rw [hp] at h
    rcases ws with _ | ⟨⟨i, k⟩, ws⟩
    · simp only [go] at h; cases h; exact ⟨rfl, rfl, _, _, rfl, hid, by simp [left]⟩
    · simp only [go] at h
      split at h <;> cases h
      exact ⟨rfl, rfl, _, _, rfl, hid, by simp [left]⟩

/-- What is left to do in the threads `T`. -/
def total (intr : Nat → Bool) (pc : Nat → PC) (T : List Nat) : Nat := (T.map fun t => left (intr t) (pc t)).sum

theorem total_upd_le (intr : Nat → Bool) (pc : Nat → PC) (T : List Nat) (t : Nat) (b : Bool) (p : PC) (h : left b p < left (intr t) (pc t)) : total (upd intr t b) (upd pc t p) T ≤ total intr pc T := by
  induction T with
  | nil => simp [total]
  | cons u T ih =>
    simp only [total, List.map_cons, List.sum_cons] at *
    have : left (upd intr t b u) (upd pc t p u) ≤ left (intr u) (pc u) := by
      simp only [upd_apply]
      by_cases hu : u = t
      · subst hu; simp only [if_true]; omega
      · simp [hu]
    omega

theorem total_upd_lt (intr : Nat → Bool) (pc : Nat → PC) (T : List Nat) (t : Nat) (b : Bool) (p : PC) (h : left b p < left (intr t) (pc t)) (ht : t ∈ T) : total (upd intr t b) (upd pc t p) T < total intr pc T := by
  induction T with
  | nil => cases ht
  | cons u T ih =>
    have h1 := total_upd_le intr pc T t b p h
    by_cases hu : u = t
    · subst hu
      simp only [total, List.map_cons, List.sum_cons, upd_apply, if_true] at *
      omega
    · have h2 := ih (by simpa [Ne.symm hu] using ht)
      simp only [total, List.map_cons, List.sum_cons, upd_apply, if_neg hu] at *
      omega

/-- The call label of a thread. -/
def Label.thread? : Label → List Nat
  | .call t _ _ => [t]
  | _ => []

/-- Only threads that have called something are in a call. -/
theorem active_of_run {ls : List Label} {s : State} {es : List Event} (h : run step init ls = some (s, es)) : ∃ T : List Nat, ∀ t, s.pc t ≠ .idle → t ∈ T := by
  have key := run_inv (step := step) (fun s => ∃ T : List Nat, ∀ t, s.pc t ≠ .idle → t ∈ T) ?_ (s := init) ⟨[], by simp [init]⟩ h
  · exact key
  · rintro s l s' es ⟨T, hT⟩ hs
    cases l with
    | call t seq fs =>
      refine ⟨t :: T, fun u hu => ?_⟩
      simp only [step] at hs
      (repeat' split at hs) <;> cases hs
      · exact List.mem_cons_of_mem _ (hT u hu)
      · simp only [upd_apply] at hu
        split at hu
        · rename_i e; rw [e]; simp
        · exact List.mem_cons_of_mem _ (hT u hu)
    | finish i =>
      refine ⟨T, fun u hu => ?_⟩
      simp only [step] at hs
      split at hs <;> cases hs
      exact hT u (fun e => hu ((notify_idle _ _ _).mpr e))
    | wake t =>
      refine ⟨T, fun u hu => ?_⟩
      simp only [step] at hs
      split at hs <;> cases hs
      rename_i hp
      simp only [upd_apply] at hu
      split at hu
      · rename_i e; rw [e]; exact hT t (by rw [hp]; simp)
      · exact hT u hu
    | interrupt t => simp only [step] at hs; cases hs; exact ⟨T, hT⟩
    | go t =>
      refine ⟨T, fun u hu => ?_⟩
      obtain ⟨_, _, p, b, hp, _, hl⟩ := go_left hs
      rw [hp] at hu
      simp only [upd_apply] at hu
      split at hu
      · rename_i e
        subst e
        exact hT u (fun e => by rw [e] at hl; simp [left] at hl)
      · exact hT u hu

/-- The futures of every call are in the order given by `r`, and no future occurs twice. -/
def Ordered (r : Nat → Nat) (ls : List Label) : Prop := ∀ t seq fs, .call t seq fs ∈ ls → (fs.filterMap id).Pairwise (fun i j => r i < r j)

def ArgOrd (r : Nat → Nat) (s : State) : Prop := ∀ t, ((s.arg t).2.filterMap id).Pairwise (fun i j => r i < r j)

theorem argOrd_of_run {r : Nat → Nat} {ls : List Label} {s : State} {es : List Event} (h : run step init ls = some (s, es)) (ho : Ordered r ls) : ArgOrd r s := by
  refine run_inv_on (step := step) (fun l => ∀ t seq fs, l = .call t seq fs → (fs.filterMap id).Pairwise (fun i j => r i < r j)) (ArgOrd r) ?_ (s := init) ?_ ?_ h
  · intro s l s' es hP hI hs
    cases l with
    | call t seq fs =>
      simp only [step] at hs
      (repeat' split at hs) <;> cases hs
      · exact hI
      · intro u
        simp only [upd_apply]
        split
        · exact hP t seq fs rfl
        · exact hI u
    | finish i => simp only [step] at hs; split at hs <;> cases hs; exact hI
    | wake t => simp only [step] at hs; split at hs <;> cases hs; exact hI
    | interrupt t => simp only [step] at hs; cases hs; exact hI
    | go t => intro u; rw [(go_left hs).2.1]; exact hI u
  · rintro l hl t seq fs rfl; exact ho t seq fs hl
  · intro t; simp [init]

theorem waiters_fst (seq : Bool) (n : Nat) (fs : List (Option Nat)) : (waiters seq n fs).map Prod.fst = fs.filterMap id := by
  induction fs generalizing n with
  | nil => rfl
  | cons x fs ih => cases x <;> simp [waiters, ih, List.filterMap_cons]

/-- The ranks of the mutexes that are held are bounded. -/
theorem rank_bound (r : Nat → Nat) (pc : Nat → PC) (T : List Nat) : ∃ B, ∀ t ∈ T, ∀ i ∈ held (pc t), r i < B := by
  have h1 : ∀ l : List Nat, ∃ B, ∀ i ∈ l, r i < B := by
    intro l
    induction l with
    | nil => exact ⟨0, by simp⟩
    | cons a l ih =>
      obtain ⟨B, hB⟩ := ih
      refine ⟨B + r a + 1, fun i hi => ?_⟩
      rcases List.mem_cons.mp hi with rfl | hi
      · omega
      · have := hB i hi; omega
  induction T with
  | nil => exact ⟨0, by simp⟩
  | cons a T ih =>
    obtain ⟨B, hB⟩ := ih
    obtain ⟨C, hC⟩ := h1 (held (pc a))
    refine ⟨B + C, fun t ht i hi => ?_⟩
    rcases List.mem_cons.mp ht with rfl | ht
    · have := hC i hi; omega
    · have := hB t ht i hi; omega

theorem locking_enabled {s : State} {u i n k : Nat} {ws : List (Nat × Nat)} (hp : s.pc u = .locking ws k) (hk : ws[k]? = some (i, n)) (hf : s.own i = none) : (go s u (s.pc u)).isSome = true := by
  simp [hp, go, hk, hf]

/-- If a mutex is held, somebody can go on. -/
theorem unblock {r : Nat → Nat} {s : State} {σ : Spec} (h : Rel s σ) (ho : ArgOrd r s) {B : Nat} (hB : ∀ u i, s.own i = some u → r i < B) :
    ∀ (d f u : Nat), B ≤ r f + d → s.own f = some u → ∃ v, (go s v (s.pc v)).isSome = true := by
  intro d
  induction d with
  | zero => intro f u hd hf; have := hB u f hf; omega
  | succ d ih =>
    intro f u hd hf
    have hm := (h.own u f).mp hf
    have hpc := h.pcs u
    cases hp : s.pc u with
    | locking ws k =>
      rw [hp] at hm hpc
      cases hk : ws[k]? with
      | none => exact ⟨u, by simp [hp, go, hk]⟩
      | some w =>
        obtain ⟨i, n⟩ := w
        cases hi : s.own i with
        | none => exact ⟨u, locking_enabled hp hk hi⟩
        | some v =>
          refine ih i v ?_ hi
          have h1 := ho u
          rw [← waiters_fst (s.arg u).1 0, ← hpc.1] at h1
          have h2 : ws = ws.take k ++ (i, n) :: ws.drop (k + 1) := by
            have hl : k < ws.length := by
              rcases Nat.lt_or_ge k ws.length with h | h
              · exact h
              · rw [List.getElem?_eq_none h] at hk; cases hk
            rw [List.getElem?_eq_getElem hl] at hk
            rw [← Option.some.inj hk, ← List.drop_eq_getElem_cons hl, List.take_append_drop]
          rw [h2, List.map_append, List.pairwise_append] at h1
          have := h1.2.2 f (by simpa [held] using hm) i (by simp)
          omega
    | checking ws =>
      refine ⟨u, ?_⟩
      simp only [hp, go]
      split <;> rfl
    | pausing ws => exact ⟨u, by simp only [hp, go]; split <;> rfl⟩
    | dropping ws => exact ⟨u, by simp [hp, go]⟩
    | _ => rw [hp] at hm; simp [held] at hm

/-- If a call is neither asleep nor at its end, somebody can go on. -/
theorem somebody_goes_on {r : Nat → Nat} {s : State} {σ : Spec} (h : Rel s σ) (ho : ArgOrd r s) {T : List Nat} (hT : ∀ t, s.pc t ≠ .idle → t ∈ T) {t : Nat} (hi : s.pc t ≠ .idle) (ha : ∀ ws, s.pc t = .asleep ws → s.intr t = true) :
    ∃ v, (go s v (s.pc v)).isSome = true := by
  obtain ⟨B, hB⟩ := rank_bound r s.pc T
  have hB' : ∀ u i, s.own i = some u → r i < B := by
    intro u i hu
    have hm := (h.own u i).mp hu
    exact hB u (hT u (fun e => by rw [e] at hm; simp [held] at hm)) i hm
  have hblock : ∀ f, s.own f ≠ none → ∃ v, (go s v (s.pc v)).isSome = true := by
    intro f hf
    cases hu : s.own f with
    | none => exact absurd hu hf
    | some u => exact unblock h ho hB' B f u (by omega) hu
  cases hp : s.pc t with
  | idle => exact absurd hp hi
  | asleep ws => exact ⟨t, by simp [hp, go, ha ws hp]⟩
  | adding rest n ws =>
    rcases rest with _ | ⟨_ | i, rest⟩
    · exact ⟨t, by simp [hp, go]⟩
    · exact ⟨t, by simp [hp, go]⟩
    · by_cases hf : s.own i = none
      · exact ⟨t, by simp [hp, go, hf]⟩
      · exact hblock i hf
  | locking ws k =>
    cases hk : ws[k]? with
    | none => exact ⟨t, by simp [hp, go, hk]⟩
    | some w =>
      obtain ⟨i, n⟩ := w
      by_cases hf : s.own i = none
      · exact ⟨t, locking_enabled hp hk hf⟩
      · exact hblock i hf
  | checking ws =>
    refine ⟨t, ?_⟩
    simp only [hp, go]
    split <;> rfl
  | pausing ws => exact ⟨t, by simp only [hp, go]; split <;> rfl⟩
  | woken ws =>
    by_cases hf : ∀ w ∈ ws, s.own w.1 = none
    · exact ⟨t, by simp only [hp, go, if_pos hf]; split <;> rfl⟩
    · simp only [Classical.not_forall] at hf
      obtain ⟨w, _, hw⟩ := hf
      exact hblock w.1 hw
  | leaving ws n =>
    rcases ws with _ | ⟨⟨i, k⟩, ws⟩
    · exact ⟨t, by simp [hp, go]⟩
    · by_cases hf : s.own i = none
      · exact ⟨t, by simp [hp, go, hf]⟩
      · exact hblock i hf
  | leavingI ws =>
    rcases ws with _ | ⟨⟨i, k⟩, ws⟩
    · exact ⟨t, by simp [hp, go]⟩
    · by_cases hf : s.own i = none
      · exact ⟨t, by simp [hp, go, hf]⟩
      · exact hblock i hf
  | dropping ws => exact ⟨t, by simp [hp, go]⟩
  | wokenI ws =>
    by_cases hf : ∀ w ∈ ws, s.own w.1 = none
    · exact ⟨t, by simp only [hp, go, if_pos hf]; rfl⟩
    · simp only [Classical.not_forall] at hf
      obtain ⟨w, _, hw⟩ := hf
      exact hblock w.1 hw

end Verif.WaitAny
