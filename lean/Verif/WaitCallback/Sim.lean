import Verif.WaitCallback.Spec
/-! # The model refines the specification -/

set_option linter.unusedSimpArgs false

namespace Verif.WaitCallback

def Zip {α β : Type} (P : α → β → Prop) : List α → List β → Prop
  | [], [] => True
  | a :: as, b :: bs => P a b ∧ Zip P as bs
  | _, _ => False

theorem Zip.imp {α β : Type} {P Q : α → β → Prop} {as : List α} {bs : List β} (h : Zip P as bs) (hi : ∀ a b, P a b → Q a b) : Zip Q as bs := by
  induction as generalizing bs with
  | nil => cases bs <;> simp_all [Zip]
  | cons a as ih => cases bs with
    | nil => simp [Zip] at h
    | cons b bs => exact ⟨hi a b h.1, ih h.2⟩

theorem Zip.map {α β : Type} {P Q : α → β → Prop} {f : α → α} {g : β → β} {as : List α} {bs : List β} (h : Zip P as bs) (hi : ∀ a b, P a b → Q (f a) (g b)) : Zip Q (as.map f) (bs.map g) := by
  induction as generalizing bs with
  | nil => cases bs <;> simp_all [Zip]
  | cons a as ih => cases bs with
    | nil => simp [Zip] at h
    | cons b bs => exact ⟨hi a b h.1, ih h.2⟩

theorem Zip.mem {α β : Type} {P : α → β → Prop} {as : List α} {bs : List β} (h : Zip P as bs) {a : α} (ha : a ∈ as) : ∃ b ∈ bs, P a b := by
  induction as generalizing bs with
  | nil => cases ha
  | cons x as ih => cases bs with
    | nil => simp [Zip] at h
    | cons b bs =>
      rcases List.mem_cons.mp ha with rfl | ha
      · exact ⟨b, List.mem_cons_self, h.1⟩
      · obtain ⟨b', h1, h2⟩ := ih h.2 ha
        exact ⟨b', List.mem_cons_of_mem _ h1, h2⟩

/-- What the specification knows about a call at this place. -/
def FM (s : State) (f : Frame) (c : Call) : Prop :=
  match f with
  | .enter k kd | .locked k kd =>
    c.k = k ∧ c.kd = kd ∧ c.began = false ∧ c.inCb = false ∧ c.threw = false ∧ (∀ p, s.cb k = some p → p ∈ c.cands) ∧ (s.res k = none → c.early = true) ∧ (c.must = true → s.cb k ≠ none)
  | .calling k kd p => c.k = k ∧ c.kd = kd ∧ c.began = false ∧ c.inCb = false ∧ c.threw = false ∧ p ∈ c.cands ∧ c.early = true ∧ s.obj p = some (some k)
  | .inCb k kd => c.k = k ∧ c.kd = kd ∧ c.began = true ∧ c.inCb = true ∧ c.threw = false
  | .relock k kd => c.k = k ∧ c.kd = kd ∧ c.began = true ∧ c.inCb = false ∧ c.threw = false
  | .unwind k kd => c.k = k ∧ c.kd = kd ∧ c.began = true ∧ c.inCb = false ∧ c.threw = true
  | .check k kd to | .awake k kd to => c.k = k ∧ c.kd = kd ∧ c.inCb = false ∧ c.threw = false ∧ (c.must = true → c.began = true ∨ s.res k ≠ none) ∧ (to = true → kd = .timed)
  | .asleep k kd ntf => c.k = k ∧ c.kd = kd ∧ c.inCb = false ∧ c.threw = false ∧ (c.must = true → c.began = true ∨ s.res k ≠ none) ∧ (ntf = false → s.res k = none)

structure R (n : Nat) (s : State) (σ : Spec) : Prop where
  ub : s.ub = false
  obj : σ.obj = s.obj
  res : σ.res = s.res
  cb : σ.cb = s.cb
  stk : ∀ t, Zip (FM s) (s.stk t) (σ.calls t)
  out : ∀ t, n ≤ t → s.stk t = []
  cbo : ∀ k p, s.cb k = some p → s.obj p = some (some k) ∨ s.res k ≠ none
  used : ∀ p, s.obj p ≠ none → s.used p = true

variable {n : Nat} {s s' : State} {σ : Spec} {t p k : Nat}

theorem FM.congr {f : Frame} {c : Call} (h1 : s'.cb = s.cb) (h2 : s'.res = s.res) (h3 : s'.obj = s.obj) (h : FM s f c) : FM s' f c := by
  cases f <;> simpa only [FM, h1, h2, h3] using h

/-- A step that concerns one thread's stack and the mutexes only. -/
theorem R.top (h : R n s σ) (ht : t < n) (h1 : s'.cb = s.cb) (h2 : s'.res = s.res) (h3 : s'.obj = s.obj) (h4 : s'.used = s.used) (h5 : s'.ub = s.ub) {fs : List Frame} {cs : List Call}
    (h6 : s'.stk = upd s.stk t fs) (hz : Zip (FM s) fs cs) : R n s' { σ with calls := upd σ.calls t cs } where
  ub := h5.trans h.ub
  obj := by rw [h3]; exact h.obj
  res := by rw [h2]; exact h.res
  cb := by rw [h1]; exact h.cb
  stk u := by
    rw [h6]
    simp only [upd_apply]
    split
    · exact hz.imp fun _ _ => FM.congr h1 h2 h3
    · exact (h.stk u).imp fun _ _ => FM.congr h1 h2 h3
  out u hu := by rw [h6]; simp only [upd_apply]; rw [if_neg (by omega)]; exact h.out u hu
  cbo := by rw [h1, h2, h3]; exact h.cbo
  used := by rw [h3, h4]; exact h.used

theorem R.top' {σ' : Spec} {fs : List Frame} {cs : List Call} (hσ : σ' = { σ with calls := upd σ.calls t cs }) (h : R n s σ) (ht : t < n) (h1 : s'.cb = s.cb) (h2 : s'.res = s.res) (h3 : s'.obj = s.obj)
    (h4 : s'.used = s.used) (h5 : s'.ub = s.ub) (h6 : s'.stk = upd s.stk t fs) (hz : Zip (FM s) fs cs) : R n s' σ' := hσ ▸ h.top ht h1 h2 h3 h4 h5 h6 hz

/-- ... and of which the specification sees nothing. -/
theorem R.silent (h : R n s σ) (ht : t < n) (h1 : s'.cb = s.cb) (h2 : s'.res = s.res) (h3 : s'.obj = s.obj) (h4 : s'.used = s.used) (h5 : s'.ub = s.ub) {fs : List Frame}
    (h6 : s'.stk = upd s.stk t fs) (hz : Zip (FM s) fs (σ.calls t)) : R n s' σ := by
  have h' := h.top ht h1 h2 h3 h4 h5 h6 hz
  have : ({ σ with calls := upd σ.calls t (σ.calls t) } : Spec) = σ := by
    have : upd σ.calls t (σ.calls t) = σ.calls := by funext u; simp only [upd_apply]; split <;> simp_all
    rw [this]
  rwa [this] at h'

theorem FM.finish {f : Frame} {c : Call} {r : Res} {o : Nat → Option (Option Nat)} (h : FM s f c)
    (hc : ∀ k' kd p', f = .calling k' kd p' → o p' = some (some k')) : FM { finish s k r with obj := o } (f.notify k) c := by
  cases f <;> simp only [FM, Frame.notify, WaitCallback.finish, upd_apply] at h ⊢
  case asleep k' kd ntf =>
    obtain ⟨h1, h2, h3, h4, h5, h6⟩ := h
    refine ⟨h1, h2, h3, h4, fun hm => (h5 hm).imp id fun hr => ?_, fun hn => ?_⟩
    · split <;> simp_all
    · simp only [Bool.or_eq_false_iff, beq_eq_false_iff_ne] at hn
      rw [if_neg hn.2]; exact h6 hn.1
  case calling k' kd p' =>
    exact ⟨h.1, h.2.1, h.2.2.1, h.2.2.2.1, h.2.2.2.2.1, h.2.2.2.2.2.1, h.2.2.2.2.2.2.1, hc _ _ _ rfl⟩
  all_goals grind

/-- A shared state becomes ready. -/
theorem R.finish (h : R n s σ) (r : Res) (hr : s.res k = none) : R n (finish s k r) (σ.ready k r) := by
  have hr' : σ.res k = none := by rw [h.res]; exact hr
  have hs : σ.ready k r = { σ with res := upd σ.res k (some r) } := by simp only [Spec.ready, hr']
  rw [hs]
  refine ⟨h.ub, h.obj, by simp only [WaitCallback.finish, h.res], h.cb, fun t => ?_, fun t ht => ?_, fun k' p' hcb => ?_, h.used⟩
  · have := (h.stk t).map (g := id) (f := Frame.notify k) (Q := FM (WaitCallback.finish s k r)) fun f c hf => by
      refine FM.finish (s := s) (o := s.obj) hf fun k' kd p' he => ?_
      subst he
      exact hf.2.2.2.2.2.2.2
    rwa [List.map_id] at this
  · show (s.stk t).map _ = []
    rw [h.out t ht]; rfl
  · refine (h.cbo k' p' hcb).imp id fun hn => ?_
    simp only [WaitCallback.finish, upd_apply]
    split <;> simp_all

theorem busy_of (h : R n s σ) {kd : Kind} (hf : Frame.calling k kd p ∈ s.stk t) : σ.busy n k p := by
  have ht : t < n := by
    refine Nat.lt_of_not_le fun hn => ?_
    rw [h.out t hn] at hf
    cases hf
  obtain ⟨c, hc, hm⟩ := (h.stk t).mem hf
  simp only [FM] at hm
  refine ⟨t, ht, List.any_eq_true.mpr ⟨c, hc, ?_⟩⟩
  simp only [Call.uses, Bool.and_eq_true, beq_iff_eq, List.contains_iff_mem, Bool.or_eq_true, Bool.not_eq_true']
  exact ⟨⟨hm.1, hm.2.2.2.2.2.1⟩, .inl hm.2.2.1⟩

/-- A promise object changes that nobody is about to call a callback with. -/
theorem R.setObj (h : R n s σ) {o : Nat → Option (Option Nat)} {us : Nat → Bool} (hu : ∀ p, o p ≠ none → us p = true)
    (hc : ∀ t k kd p, .calling k kd p ∈ s.stk t → o p = some (some k)) (hcb : ∀ k p, s.cb k = some p → o p = some (some k) ∨ s.res k ≠ none) :
    R n { s with obj := o, used := us } { σ with obj := o } := by
  refine ⟨h.ub, rfl, h.res, h.cb, fun t => ?_, h.out, hcb, hu⟩
  have key : ∀ (fs : List Frame) (cs : List Call), (∀ f ∈ fs, ∀ k kd p, f = .calling k kd p → o p = some (some k)) → Zip (FM s) fs cs → Zip (FM { s with obj := o, used := us }) fs cs := by
    intro fs
    induction fs with
    | nil => intro cs _ hz; cases cs <;> simp_all [Zip]
    | cons f fs ih =>
      intro cs hf hz
      cases cs with
      | nil => simp [Zip] at hz
      | cons c cs =>
        refine ⟨?_, ih cs (fun g hg => hf g (List.mem_cons_of_mem _ hg)) hz.2⟩
        have h1 := hz.1
        have h2 := hf f List.mem_cons_self
        cases f <;> simp only [FM] at h1 ⊢ <;> grind
  exact key _ _ (fun f hf k kd p he => hc t k kd p (he ▸ hf)) (h.stk t)

theorem free_cases (h : R n s σ) (hf : free s t = true) : σ.calls t = [] ∧ s.stk t = [] ∨ ∃ c cs, σ.calls t = c :: cs ∧ c.inCb = true := by
  have hz := h.stk t
  unfold free at hf
  cases hs : s.stk t with
  | nil => rw [hs] at hz; cases hc : σ.calls t with
    | nil => exact .inl ⟨rfl, rfl⟩
    | cons c cs => rw [hc] at hz; simp [Zip] at hz
  | cons f fs =>
    simp only [hs] at hf
    cases f <;> simp at hf
    rename_i k kd
    rw [hs] at hz
    cases hc : σ.calls t with
    | nil => rw [hc] at hz; simp [Zip] at hz
    | cons c cs => rw [hc] at hz; exact .inr ⟨c, cs, rfl, hz.1.2.2.2.1⟩

theorem set_sim (h : R n s σ) {r : Res} {es : List Event} (hs : set s t p r = some (s', es)) : Follows (next n false) (R n s') σ es := by
  unfold set at hs
  split at hs
  · rename_i k ho
    have ho' : σ.obj p = some (some k) := by rw [h.obj]; exact ho
    split at hs
    rotate_left
    · cases hs
    split at hs <;> cases hs
    · rename_i x hr
      simp only [Follows, next, ho']
      rw [if_neg (by rw [h.res, hr]; simp)]
      exact h
    · rename_i hr
      simp only [Follows, next, ho']
      rw [if_pos (by rw [h.res, hr])]
      exact h.finish r hr
  · rename_i ho
    cases hs
    have : ∀ k, σ.obj p ≠ some (some k) := fun k hk => ho k (by rw [← h.obj]; exact hk)
    have hn : next n false σ (.wasSet t p r) = .undefined := by
      simp only [next]
    simp only [Follows, hn]

theorem destroy_sim (h : R n s σ) {es : List Event} (hs : destroy s t p = some (s', es)) : Follows (next n false) (R n s') σ es := by
  have hused : ∀ q, upd s.obj p none q ≠ none → s.used q = true := fun q hq => by
    simp only [upd_apply] at hq
    split at hq
    · exact absurd rfl hq
    · exact h.used q hq
  unfold destroy at hs
  split at hs
  · rename_i k ho
    have ho' : σ.obj p = some (some k) := by rw [h.obj]; exact ho
    have hn : next n false σ (.destroyed t p) = if σ.busy n k p then .undefined else .ok (Spec.ready { σ with obj := upd σ.obj p none } k .broken) := by
      simp only [next, ho', true_and]
    split at hs
    rotate_left
    · cases hs
    by_cases hb : σ.busy n k p
    · split at hs <;> cases hs <;> simp only [Follows, hn, if_pos hb]
    · rw [if_neg hb, h.obj] at hn
      have hcall : ∀ t k' kd p', Frame.calling k' kd p' ∈ s.stk t → upd s.obj p none p' = some (some k') := by
        intro t k' kd p' hm
        obtain ⟨c, -, hc⟩ := (h.stk t).mem hm
        have hop := hc.2.2.2.2.2.2.2
        simp only [upd_apply]
        split
        · rename_i he
          subst he
          rw [ho] at hop
          cases hop
          exact absurd (busy_of h hm) hb
        · exact hop
      split at hs <;> cases hs
      · rename_i x hr
        simp only [Follows, hn]
        have hrr : Spec.ready { σ with obj := upd s.obj p none } k .broken = { σ with obj := upd s.obj p none } := by simp only [Spec.ready, h.res, hr]
        rw [hrr]
        refine h.setObj (us := s.used) hused hcall fun k' p' hcb => ?_
        rcases h.cbo k' p' hcb with h1 | h1
        · simp only [upd_apply]
          split
          · rename_i he; subst he; rw [ho] at h1; cases h1; exact .inr (by rw [hr]; simp)
          · exact .inl h1
        · exact .inr h1
      · rename_i hr
        simp only [Follows, hn]
        have h1 := h.finish (k := k) .broken hr
        have h2 : R n { WaitCallback.finish s k .broken with obj := upd s.obj p none, used := s.used } { σ.ready k .broken with obj := upd s.obj p none } := by
          refine h1.setObj hused ?_ ?_
          · intro t k' kd p' hm
            have : Frame.calling k' kd p' ∈ s.stk t := by
              obtain ⟨f, hf, he⟩ := List.mem_map.mp hm
              cases f <;> simp [Frame.notify] at he
              obtain ⟨rfl, rfl, rfl⟩ := he
              exact hf
            exact hcall t k' kd p' this
          · intro k' p' hcb
            rcases h1.cbo k' p' hcb with h2 | h2
            · simp only [upd_apply]
              split
              · rename_i he
                subst he
                have h2' : s.obj p' = some (some k') := h2
                rw [ho] at h2'
                cases h2'
                exact .inr (by simp [WaitCallback.finish, upd_apply])
              · exact .inl h2
            · exact .inr h2
        have he : Spec.ready { σ with obj := upd s.obj p none } k .broken = { σ.ready k .broken with obj := upd s.obj p none } := by
          simp only [Spec.ready, h.res, hr]
        rw [he]
        exact h2
  · rename_i ho
    cases hs
    have ho' : σ.obj p = some none := by rw [h.obj]; exact ho
    simp only [Follows, next, ho']
    rw [h.obj]
    refine h.setObj (us := s.used) hused ?_ ?_
    · intro t k' kd p' hm
      obtain ⟨c, -, hc⟩ := (h.stk t).mem hm
      have hop := hc.2.2.2.2.2.2.2
      simp only [upd_apply]
      split
      · rename_i he; subst he; rw [ho] at hop; cases hop
      · exact hop
    · intro k' p' hcb
      refine (h.cbo k' p' hcb).imp (fun h1 => ?_) id
      simp only [upd_apply]
      split
      · rename_i he; subst he; rw [ho] at h1; cases h1
      · exact h1
  · rename_i ho
    cases hs
    have ho' : σ.obj p = none := by rw [h.obj]; exact ho
    simp only [Follows, next, ho']

theorem setCb_sim (h : R n s σ) {es : List Event} (hs : setCb s t p = some (s', es)) : Follows (next n false) (R n s') σ es := by
  unfold setCb at hs
  split at hs
  · rename_i k ho
    have ho' : σ.obj p = some (some k) := by rw [h.obj]; exact ho
    split at hs <;> cases hs
    simp only [Follows, next, ho']
    refine ⟨h.ub, h.obj, h.res, by rw [h.cb], fun u => ?_, h.out, fun k' p' hcb => ?_, h.used⟩
    · have := (h.stk u).map (f := id) (g := Call.add k p) (Q := FM { s with cb := upd s.cb k (some p) }) fun f c hf => by
        have ha : (c.add k p).k = c.k ∧ (c.add k p).kd = c.kd ∧ (c.add k p).began = c.began ∧ (c.add k p).inCb = c.inCb ∧ (c.add k p).threw = c.threw ∧ (c.add k p).early = c.early ∧
            (c.add k p).must = c.must ∧ (∀ q ∈ c.cands, q ∈ (c.add k p).cands) ∧ (c.k = k → p ∈ (c.add k p).cands) := by
          unfold Call.add
          split
          · exact ⟨rfl, rfl, rfl, rfl, rfl, rfl, rfl, fun q hq => List.mem_cons_of_mem _ hq, fun _ => List.mem_cons_self⟩
          · exact ⟨rfl, rfl, rfl, rfl, rfl, rfl, rfl, fun q hq => hq, fun hk => absurd hk ‹_›⟩
        obtain ⟨a1, a2, a3, a4, a5, a6, a7, a8, a9⟩ := ha
        cases f <;> simp only [id, FM, a1, a2, a3, a4, a5, a6, a7, upd_apply] at hf ⊢
        case calling => exact ⟨hf.1, hf.2.1, hf.2.2.1, hf.2.2.2.1, hf.2.2.2.2.1, a8 _ hf.2.2.2.2.2.1, hf.2.2.2.2.2.2.1, hf.2.2.2.2.2.2.2⟩
        case enter k' kd =>
          refine ⟨hf.1, hf.2.1, hf.2.2.1, hf.2.2.2.1, hf.2.2.2.2.1, fun q hq => ?_, hf.2.2.2.2.2.2.1, fun hm => ?_⟩
          · split at hq
            · cases hq; exact a9 (hf.1.trans ‹_›)
            · exact a8 _ (hf.2.2.2.2.2.1 q hq)
          · split
            · simp
            · exact hf.2.2.2.2.2.2.2 hm
        case locked k' kd =>
          refine ⟨hf.1, hf.2.1, hf.2.2.1, hf.2.2.2.1, hf.2.2.2.2.1, fun q hq => ?_, hf.2.2.2.2.2.2.1, fun hm => ?_⟩
          · split at hq
            · cases hq; exact a9 (hf.1.trans ‹_›)
            · exact a8 _ (hf.2.2.2.2.2.1 q hq)
          · split
            · simp
            · exact hf.2.2.2.2.2.2.2 hm
        all_goals exact hf
      rwa [List.map_id] at this
    · simp only [upd_apply] at hcb
      split at hcb
      · rename_i he; subst he; cases hcb; exact .inl ho
      · exact h.cbo k' p' hcb
  · rename_i ho
    cases hs
    have : ∀ k, σ.obj p ≠ some (some k) := fun k hk => ho k (by rw [← h.obj]; exact hk)
    have hn : next n false σ (.callbackSet t p) = .undefined := by
      simp only [next]
    simp only [Follows, hn]

theorem move_sim (h : R n s σ) {q : Nat} {es : List Event} (hs : move s t p q = some (s', es)) : Follows (next n false) (R n s') σ es := by
  unfold move at hs
  split at hs
  · cases hs
  rename_i hq
  have hq0 : s.obj q = none := by
    cases ho : s.obj q with
    | none => rfl
    | some x => exact absurd (h.used q (by rw [ho]; simp)) hq
  split at hs
  · rename_i o ho
    cases hs
    have ho' : σ.obj p = some o := by rw [h.obj]; exact ho
    have hpq : p ≠ q := by rintro rfl; rw [hq0] at ho; cases ho
    have hus : ∀ p', upd (upd s.obj q (some o)) p (some none) p' ≠ none → upd s.used q true p' = true := by
      intro p' hp'
      simp only [upd_apply] at hp' ⊢
      split
      · rfl
      · rename_i h1
        rw [if_neg h1] at hp'
        split at hp'
        · rename_i h2; subst h2; exact h.used p' (by rw [ho]; simp)
        · exact h.used p' hp'
    have hcall : (∀ k, o = some k → ¬ σ.busy n k p) → ∀ t k' kd p', Frame.calling k' kd p' ∈ s.stk t → upd (upd s.obj q (some o)) p (some none) p' = some (some k') := by
      intro hb t k' kd p' hm
      obtain ⟨c, -, hc⟩ := (h.stk t).mem hm
      have hop := hc.2.2.2.2.2.2.2
      simp only [upd_apply]
      split
      · rename_i he
        subst he
        rw [ho] at hop
        cases hop
        exact absurd (busy_of h hm) (hb k' rfl)
      · split
        · rename_i he; subst he; rw [hq0] at hop; cases hop
        · exact hop
    have hcb : (∀ k, o = some k → s.cb k ≠ some p) → ∀ k' p', s.cb k' = some p' → upd (upd s.obj q (some o)) p (some none) p' = some (some k') ∨ s.res k' ≠ none := by
      intro hb k' p' hc
      refine (h.cbo k' p' hc).imp (fun h1 => ?_) id
      simp only [upd_apply]
      split
      · rename_i he
        subst he
        rw [ho] at h1
        cases h1
        exact absurd hc (hb k' rfl)
      · split
        · rename_i he; subst he; rw [hq0] at h1; cases h1
        · exact h1
    cases o with
    | none =>
      simp only [Follows, next, ho']
      rw [h.obj]
      exact h.setObj hus (hcall (by simp)) (hcb (by simp))
    | some k =>
      by_cases hc : σ.cb k = some p ∨ σ.busy n k p
      · simp only [Follows, next, ho', true_and, if_pos hc]
      · simp only [Follows, next, ho', true_and, if_neg hc]
        rw [h.obj]
        refine h.setObj hus (hcall fun k' he => ?_) (hcb fun k' he => ?_)
        · cases he; exact fun hb => hc (.inr hb)
        · cases he; rw [← h.cb]; exact fun hb => hc (.inl hb)
  · rename_i ho
    cases hs
    have ho' : σ.obj p = none := by rw [h.obj]; exact ho
    simp only [Follows, next, ho']

theorem zip_cons {f : Frame} {fs : List Frame} (h : R n s σ) (hs : s.stk t = f :: fs) : ∃ c cs, σ.calls t = c :: cs ∧ FM s f c ∧ Zip (FM s) fs cs := by
  have hz := h.stk t
  rw [hs] at hz
  cases hc : σ.calls t with
  | nil => rw [hc] at hz; simp [Zip] at hz
  | cons c cs => rw [hc] at hz; exact ⟨c, cs, rfl, hz.1, hz.2⟩

theorem go_sim (h : R n s σ) (ht : t < n) {es : List Event} (hs : go s t = some (s', es)) : Follows (next n false) (R n s') σ es := by
  unfold go at hs
  cases hst : s.stk t with
  | nil => simp only [hst] at hs; cases hs
  | cons f fs =>
    simp only [hst] at hs
    obtain ⟨c, cs, hc, hm, hz⟩ := zip_cons h hst
    cases f with
    | enter k kd =>
      simp only [lockAnd] at hs
      split at hs <;> cases hs
      exact h.silent ht rfl rfl rfl rfl rfl rfl (by rw [hc]; exact ⟨hm, hz⟩)
    | locked k kd =>
      simp only at hs
      simp only [FM] at hm
      obtain ⟨m1, m2, m3, m4, m5, m6, m7, m8⟩ := hm
      split at hs <;> cases hs
      · rename_i p hcb hr
        refine h.silent ht rfl rfl rfl rfl rfl rfl ?_
        rw [hc]
        refine ⟨⟨m1, m2, m3, m4, m5, m6 p hcb, m7 hr, ?_⟩, hz⟩
        exact (h.cbo k p hcb).resolve_right (by simp [hr])
      · rename_i hno
        refine h.silent ht rfl rfl rfl rfl rfl rfl ?_
        rw [hc]
        refine ⟨⟨m1, m2, m4, m5, fun hmust => .inr fun hr => ?_, by simp⟩, hz⟩
        cases hcb : s.cb k with
        | none => exact m8 hmust hcb
        | some p => exact hno p hcb hr
    | calling k kd p =>
      cases hs
      simp only [FM] at hm
      obtain ⟨m1, m2, m3, m4, m5, m6, m7, m8⟩ := hm
      simp only [Follows, next, hc]
      rw [if_pos ⟨m1, m7, m3, m6, (by show σ.obj p = _; rw [h.obj]; exact m8)⟩]
      exact R.top' rfl h ht rfl rfl rfl rfl rfl rfl ⟨⟨m1, m2, rfl, rfl, m5⟩, hz⟩
    | inCb k kd => cases hs
    | relock k kd =>
      simp only [lockAnd] at hs
      simp only [FM] at hm
      obtain ⟨m1, m2, m3, m4, m5⟩ := hm
      split at hs <;> cases hs
      exact h.silent ht rfl rfl rfl rfl rfl rfl (by rw [hc]; exact ⟨⟨m1, m2, m4, m5, fun _ => .inl m3, by simp⟩, hz⟩)
    | unwind k kd =>
      simp only [FM] at hm
      obtain ⟨m1, m2, m3, m4, m5⟩ := hm
      simp only at hs
      split at hs <;> cases hs
      simp only [Follows, next, hc]
      rw [if_pos ⟨m1, m5⟩]
      exact R.top' rfl h ht rfl rfl rfl rfl rfl rfl hz
    | check k kd to =>
      simp only [FM] at hm
      obtain ⟨m1, m2, m3, m4, m5, m6⟩ := hm
      simp only at hs
      split at hs
      · rename_i r hr
        cases hs
        simp only [Follows, next, hc]
        rw [if_pos ⟨m1, m2, m3, m4, by rw [h.res]; exact hr⟩]
        exact R.top' rfl h ht rfl rfl rfl rfl rfl rfl hz
      · rename_i hr
        split at hs <;> cases hs
        · rename_i hto
          simp only [Follows, next, hc]
          rw [if_pos ⟨m1, m2.trans (m6 hto), m3, m4, by rw [h.res]; exact hr, fun hmust => (m5 hmust).resolve_right (by simp [hr])⟩]
          exact R.top' rfl h ht rfl rfl rfl rfl rfl rfl hz
        · exact h.silent ht rfl rfl rfl rfl rfl rfl (by rw [hc]; exact ⟨⟨m1, m2, m3, m4, m5, fun _ => hr⟩, hz⟩)
    | asleep k kd ntf =>
      simp only [FM] at hm
      obtain ⟨m1, m2, m3, m4, m5, m6⟩ := hm
      simp only at hs
      split at hs <;> cases hs
      exact h.silent ht rfl rfl rfl rfl rfl rfl (by rw [hc]; exact ⟨⟨m1, m2, m3, m4, m5, by simp⟩, hz⟩)
    | awake k kd to =>
      simp only [lockAnd] at hs
      simp only [FM] at hm
      split at hs <;> cases hs
      exact h.silent ht rfl rfl rfl rfl rfl rfl (by rw [hc]; exact ⟨hm, hz⟩)

theorem sim (h : R n s σ) {l : Label} {es : List Event} (hs : step n s l = some (s', es)) : Follows (next n false) (R n s') σ es := by
  unfold step at hs
  split at hs
  rotate_left
  · cases hs
  rename_i hg
  obtain ⟨-, ht⟩ := hg
  cases l with
  | create t p =>
    simp only [act] at hs
    split at hs <;> cases hs
    rename_i hf
    have hp0 : s.obj p = none := by
      cases ho : s.obj p with
      | none => rfl
      | some x => have := h.used p (by rw [ho]; simp); rw [hf.2] at this; cases this
    simp only [Follows, next]
    rw [h.obj]
    refine h.setObj (fun q hq => ?_) (fun t k kd q hm => ?_) (fun k q hcb => ?_)
    · simp only [upd_apply] at hq ⊢
      split
      · rfl
      · rename_i h1; rw [if_neg h1] at hq; exact h.used q hq
    · obtain ⟨c, -, hc⟩ := (h.stk t).mem hm
      have hop := hc.2.2.2.2.2.2.2
      simp only [upd_apply]
      split
      · rename_i he; subst he; rw [hp0] at hop; cases hop
      · exact hop
    · refine (h.cbo k q hcb).imp (fun h1 => ?_) id
      simp only [upd_apply]
      split
      · rename_i he; subst he; rw [hp0] at h1; cases h1
      · exact h1
  | setCb t p =>
    simp only [act] at hs
    split at hs
    · exact setCb_sim h hs
    · cases hs
  | move t p q =>
    simp only [act] at hs
    split at hs
    · exact move_sim h hs
    · cases hs
  | destroy t p =>
    simp only [act] at hs
    split at hs
    · exact destroy_sim h hs
    · cases hs
  | set t p r =>
    simp only [act] at hs
    split at hs
    · exact set_sim h hs
    · cases hs
  | call t k kd =>
    simp only [Label.thread] at ht
    simp only [act] at hs
    split at hs <;> cases hs
    rename_i hf
    have hFM : FM s (.enter k kd) { k, kd, early := σ.res k = none, must := σ.cb k ≠ none ∧ σ.res k = none, cands := (σ.cb k).toList, began := false, inCb := false, threw := false } := by
      simp only [FM, h.res, h.cb]
      refine ⟨trivial, trivial, trivial, trivial, trivial, fun p hp => by simp [hp], fun hr => by simp [hr], fun hm => ?_⟩
      simp only [decide_eq_true_eq] at hm
      exact hm.1
    rcases free_cases h hf with ⟨h1, h2⟩ | ⟨c, cs, h1, h2⟩
    · simp only [Follows, next, h1]
      exact R.top' rfl h ht rfl rfl rfl rfl rfl rfl ⟨hFM, by rw [h2]; trivial⟩
    · simp only [Follows, next, h1, h2, ↓reduceIte]
      exact R.top' rfl h ht rfl rfl rfl rfl rfl rfl ⟨hFM, by rw [← h1]; exact h.stk t⟩
  | go t => exact go_sim h ht hs
  | spurious t =>
    simp only [Label.thread] at ht
    simp only [act] at hs
    split at hs <;> cases hs
    rename_i k kd ntf fs hst
    obtain ⟨c, cs, hc, ⟨m1, m2, m3, m4, m5, m6⟩, hz⟩ := zip_cons h hst
    exact h.silent ht rfl rfl rfl rfl rfl rfl (by rw [hc]; exact ⟨⟨m1, m2, m3, m4, m5, by simp⟩, hz⟩)
  | timeout t =>
    simp only [Label.thread] at ht
    simp only [act] at hs
    split at hs <;> cases hs
    rename_i k ntf fs hst
    obtain ⟨c, cs, hc, ⟨m1, m2, m3, m4, m5, m6⟩, hz⟩ := zip_cons h hst
    exact h.silent ht rfl rfl rfl rfl rfl rfl (by rw [hc]; exact ⟨⟨m1, m2, m3, m4, m5, by simp⟩, hz⟩)
  | cbEnd t =>
    simp only [Label.thread] at ht
    simp only [act] at hs
    split at hs <;> cases hs
    rename_i k kd fs hst
    obtain ⟨c, cs, hc, ⟨m1, m2, m3, m4, m5⟩, hz⟩ := zip_cons h hst
    simp only [Follows, next, hc]
    rw [if_pos ⟨m1, m4⟩]
    exact R.top' rfl h ht rfl rfl rfl rfl rfl rfl ⟨⟨m1, m2, m3, rfl, m5⟩, hz⟩
  | cbThrow t =>
    simp only [Label.thread] at ht
    simp only [act] at hs
    split at hs <;> cases hs
    rename_i k kd fs hst
    obtain ⟨c, cs, hc, ⟨m1, m2, m3, m4, m5⟩, hz⟩ := zip_cons h hst
    simp only [Follows, next, hc]
    rw [if_pos ⟨m1, m4⟩]
    exact R.top' rfl h ht rfl rfl rfl rfl rfl rfl ⟨⟨m1, m2, m3, rfl, rfl⟩, hz⟩

theorem R.init : R n init {} where
  ub := rfl
  obj := rfl
  res := rfl
  cb := rfl
  stk _ := trivial
  out _ _ := rfl
  cbo _ _ h := by cases h
  used _ h := absurd rfl h

end Verif.WaitCallback
