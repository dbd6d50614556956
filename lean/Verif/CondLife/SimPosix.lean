import Verif.CondLife.Sim
/-!
# POSIX with interruption
-/

set_option linter.unusedSimpArgs false
set_option linter.unusedVariables false

namespace Verif.CondLife.Posix
open CondVar (Thr PC)

def view : PC → View
  | .w0 c _ _ _ => ⟨some (.entering c), none⟩
  | .w1 c _ _ _ => ⟨some (.entering c), none⟩
  | .w2 c _ _ _ => ⟨some (.entering c), none⟩
  | .w3 c _ _ _ => ⟨some (.waiting c), none⟩
  | .asleep c _ _ _ => ⟨some (.waiting c), none⟩
  | .woke c _ _ _ => ⟨some (.woken c), none⟩
  | .clr c _ _ => ⟨some (.woken c), none⟩
  | .relock _ _ => ⟨none, none⟩
  | _ => ⟨some .out, none⟩

def vw (b : CondVar.State) : Nat → View := fun t => view (((b.ts[t]?).map Thr.pc).getD .idle)

structure R (s : State) (σ : Spec) : Prop where
  ok : Ok true s.base.ts.length (vw s.base) s.dead σ
  inv : CondVar.Inv s.base

theorem vw_get {b : CondVar.State} {t : Nat} {x : Thr} (h : b.ts[t]? = some x) : vw b t = view x.pc := by simp [vw, h]

theorem lt_of_get {b : CondVar.State} {t : Nat} {x : Thr} (h : b.ts[t]? = some x) : t < b.ts.length := (List.getElem?_eq_some_iff.mp h).1

theorem vw_set {b b' : CondVar.State} {t u : Nat} {x' : Thr} (ht : t < b.ts.length) (hts : b'.ts = b.ts.set t x') : vw b' u = upd (vw b) t (view x'.pc) u := by
  simp only [vw, upd, hts]
  by_cases e : u = t
  · subst e; simp [ht]
  · have : t ≠ u := fun e' => e e'.symm
    simp [List.getElem?_set, this, e]

variable {b b' : CondVar.State} {σ : Spec} {dead : Nat → Bool}

/-- One thread goes on, with nothing to see. -/
theorem quiet (h : Ok true b.ts.length (vw b) dead σ) {t : Nat} {x x' : Thr} (ht : b.ts[t]? = some x) (hts : b'.ts = b.ts.set t x')
    (hv : ∀ q c, Rel (view x.pc) q c → Rel (view x'.pc) q c) : Ok true b'.ts.length (vw b') dead σ := by
  have hl : b'.ts.length = b.ts.length := by simp [hts]
  rw [hl]
  refine h.mono fun u hu q c hr => ?_
  rw [vw_set (lt_of_get ht) hts]
  simp only [upd]
  split
  · rename_i e; subst e; rw [vw_get ht] at hr; exact hv q c hr
  · exact hr

theorem after {σ' : Spec} {t : Nat} {x' : Thr} {w : View} (ht : t < b.ts.length) (h' : Ok true b.ts.length (upd (vw b) t w) dead σ') (hts : b'.ts = b.ts.set t x')
    (hx : w = view x'.pc) : Ok true b'.ts.length (vw b') dead σ' := by
  have hl : b'.ts.length = b.ts.length := by simp [hts]
  rw [hl]
  refine h'.congr fun u hu => ?_
  rw [vw_set ht hts, hx]

theorem same (h : Ok true b.ts.length (vw b) dead σ) (hts : b'.ts = b.ts) : Ok true b'.ts.length (vw b') dead σ := by
  rw [hts]; exact h.congr fun u _ => by simp [vw, hts]

theorem mem_waiters {c u : Nat} (h : u ∈ waiters b c) : u < b.ts.length ∧ ∃ x m s d, b.ts[u]? = some x ∧ x.pc = .asleep c m s d := by
  simp only [waiters, List.mem_filter, List.mem_range] at h
  refine ⟨h.1, ?_⟩
  cases e : b.ts[u]? with
  | none => simp [e] at h
  | some x =>
    simp only [e, Option.any_some, CondVar.asleepOn] at h
    cases hp : x.pc <;> simp [hp] at h
    obtain ⟨-, rfl⟩ := h
    exact ⟨x, _, _, _, rfl, hp⟩

theorem waiters_view {c u : Nat} (h : u ∈ waiters b c) : u < b.ts.length ∧ vw b u = ⟨some (.waiting c), none⟩ := by
  obtain ⟨h1, x, m, s, d, h2, h3⟩ := mem_waiters h
  exact ⟨h1, by rw [vw_get h2, h3]; rfl⟩

/-- The views after a broadcast. -/
theorem vw_wake {c u : Nat} : view ((((b.ts.map (CondVar.wake c))[u]?).map Thr.pc).getD .idle) = if u ∈ waiters b c then ⟨some (.woken c), none⟩ else vw b u := by
  by_cases e : u ∈ waiters b c
  · obtain ⟨h1, x, m, s, d, h2, h3⟩ := mem_waiters e
    simp [e, h2, CondVar.wake, h3, view]
  · simp only [if_neg e, vw, List.getElem?_map]
    cases hx : b.ts[u]? with
    | none => simp
    | some x =>
      have : CondVar.asleepOn c x = false := by
        cases ha : CondVar.asleepOn c x with
        | false => rfl
        | true => exact absurd (List.mem_filter.mpr ⟨List.mem_range.mpr (lt_of_get hx), by simp [hx, ha]⟩) e
      have hw : CondVar.wake c x = x := by
        unfold CondVar.wake
        unfold CondVar.asleepOn at this
        split
        · rename_i c' m st d hp
          simp only [hp, beq_eq_false_iff_ne, ne_eq] at this
          rw [if_neg this]
        · rfl
      simp [hw]

theorem go_sim {t : Nat} {x : Thr} {es : List CondVar.Event} (h : Ok true b.ts.length (vw b) dead σ) (hi : CondVar.Inv b) (ht : b.ts[t]? = some x)
    (hs : CondVar.go b t x = some (b', es)) : Follows (next true) (fun σ' => Ok true b'.ts.length (vw b') dead σ') σ (es.flatMap (sees b)) := by
  have hlt := lt_of_get ht
  have hv := vw_get ht
  unfold CondVar.go at hs
  split at hs
  · rename_i c m st tm hp
    rw [hp] at hv
    split at hs
    · split at hs
      · split at hs <;> cases hs
        · simp only [List.flatMap_cons, List.flatMap_nil, sees, ht, hp, List.append_nil]
          refine h.back hlt (by rw [hv]; exact Or.inr ⟨c, Or.inl rfl⟩) fun σ' h' => ?_
          rw [hv] at h'
          exact after hlt h' rfl rfl
        · exact quiet h ht rfl (by rw [hp]; exact fun q c hr => hr)
      · cases hs
    · cases hs
      exact quiet h ht rfl (by rw [hp]; exact fun q c hr => hr)
  · rename_i c m st tm hp
    split at hs <;> cases hs
    exact quiet h ht rfl (by rw [hp]; exact fun q c hr => hr)
  · rename_i c m st tm hp
    cases hs
    rw [hp] at hv
    simp only [List.flatMap_cons, List.flatMap_nil, sees, List.append_nil]
    refine h.released (c := c) hlt (by rw [hv]; rfl) fun σ' h' => ?_
    rw [hv] at h'
    exact after hlt h' rfl rfl
  · rename_i c m st tm hp
    cases hs
    exact quiet h ht rfl (by rw [hp]; exact fun q c hr => hr)
  · rename_i c m st tm hp
    split at hs <;> cases hs
    refine quiet h ht rfl ?_
    rw [hp]
    cases st
    · exact fun q _ hr => ⟨hr.1, c, hr.2⟩
    · exact fun q _ hr => hr
  · rename_i c m to hp
    split at hs <;> cases hs
    exact quiet h ht rfl (by rw [hp]; exact fun q _ hr => ⟨hr.1, c, hr.2⟩)
  · rename_i m to hp
    split at hs <;> cases hs
    rw [hp] at hv
    simp only [List.flatMap_cons, List.flatMap_nil, sees, List.append_nil]
    refine h.back hlt (by rw [hv]; exact Or.inl rfl) fun σ' h' => ?_
    rw [hv] at h'
    exact after hlt h' rfl rfl
  · rename_i m to hp
    split at hs
    · split at hs
      · split at hs <;> cases hs
        · simp only [List.flatMap_cons, List.flatMap_nil, sees, ht, hp, List.append_nil]
          exact quiet h ht rfl (by rw [hp]; exact fun q c hr => hr)
        · exact quiet h ht rfl (by rw [hp]; exact fun q c hr => hr)
      · cases hs
    · cases hs
      exact quiet h ht rfl (by rw [hp]; exact fun q c hr => hr)
  · rename_i u c hp
    split at hs
    · split at hs
      · rename_i y hy
        simp only at hs
        split at hs <;> cases hs
        rename_i z hz
        simp only [List.flatMap_cons, List.flatMap_nil, sees]
        refine h.wokenOn (c := c) (fun w hw => ?_) fun σ' h' => ?_
        · obtain ⟨g1, g2⟩ := waiters_view hw
          exact ⟨g1, by rw [g2]⟩
        · obtain ⟨hne, y', hy', -, -⟩ := hi.i1 t x u c ht hp
          have hlu := lt_of_get hy'
          have hlen : (((b.ts.map (CondVar.wake c)).set u { y with dm := none }).set t (z.at .idle)).length = b.ts.length := by simp
          simp only [Follows]
          rw [hlen]
          refine h'.congr fun w hw => ?_
          have key := vw_wake (b := b) (c := c) (u := w)
          have hvb : (if w ∈ waiters b c then (⟨some (.woken c), (vw b w).busy⟩ : View) else vw b w) = if w ∈ waiters b c then ⟨some (.woken c), none⟩ else vw b w := by
            split
            · rename_i e; rw [(waiters_view e).2]
            · rfl
          rw [hvb, ← key]
          simp only [vw]
          by_cases e : w = t
          · subst e
            have : (CondVar.wake c x).pc = .i1 u c := CondVar.wake_i1.mpr hp
            rw [List.getElem?_set_self (by simpa using hw)]
            simp only [List.getElem?_map, ht, Option.map_some, Option.getD_some, this, CondVar.Thr.at, view]
          · have e' : t ≠ w := fun g => e g.symm
            rw [List.getElem?_set_ne e']
            by_cases e2 : w = u
            · subst e2
              simp only [List.getElem?_map, hy', Option.map_some, Option.some.injEq] at hy
              rw [List.getElem?_set_self (by simpa using hw)]
              simp only [List.getElem?_map, hy', hy, Option.map_some, Option.getD_some]
            · have e2' : u ≠ w := fun g => e2 g.symm
              rw [List.getElem?_set_ne e2']
      · cases hs
    · cases hs
  · cases hs

theorem idle_view {x : Thr} (h : x.pc = .idle) : view x.pc = ⟨some .out, none⟩ := by rw [h]; rfl

theorem base_sim {l : CondVar.Label} {es : List CondVar.Event} (h : Ok true b.ts.length (vw b) dead σ) (hi : CondVar.Inv b)
    (hs : CondVar.step b l = some (b', es)) : Follows (next true) (fun σ' => Ok true b'.ts.length (vw b') dead σ') σ (calls l ++ es.flatMap (sees b)) := by
  cases l with
  | go t =>
    simp only [CondVar.step] at hs
    split at hs
    · rename_i x ht; exact go_sim h hi ht hs
    · cases hs
  | wait t c m timed =>
    simp only [CondVar.step] at hs
    split at hs
    · rename_i x ht
      split at hs <;> cases hs
      rename_i g
      have hlt := lt_of_get ht
      have hv := vw_get ht
      rw [idle_view g.1] at hv
      simp only [calls, List.flatMap_nil, List.append_nil]
      refine h.called hlt (by rw [hv]) fun σ' h' => ?_
      rw [hv] at h'
      exact after hlt h' rfl rfl
    · cases hs
  | lock t m =>
    simp only [CondVar.step] at hs
    (repeat' split at hs) <;> cases hs
    exact same h rfl
  | unlock t m =>
    simp only [CondVar.step] at hs
    (repeat' split at hs) <;> cases hs
    exact same h rfl
  | spurious t =>
    simp only [CondVar.step] at hs
    split at hs
    · rename_i x ht
      split at hs <;> cases hs
      rename_i c m st tm hp
      have hlt := lt_of_get ht
      have hv := vw_get ht
      rw [hp] at hv
      refine h.woken (c := c) hlt (by rw [hv]; exact Or.inl rfl) fun σ' h' => ?_
      rw [hv] at h'
      exact after hlt h' rfl rfl
    · cases hs
  | timeout t =>
    simp only [CondVar.step] at hs
    split at hs
    · rename_i x ht
      split at hs
      · rename_i c m st tm hp
        split at hs <;> cases hs
        have hlt := lt_of_get ht
        have hv := vw_get ht
        rw [hp] at hv
        refine h.woken (c := c) hlt (by rw [hv]; exact Or.inl rfl) fun σ' h' => ?_
        rw [hv] at h'
        exact after hlt h' rfl rfl
      · cases hs
    · cases hs
  | notifyOne t c w =>
    simp only [CondVar.step] at hs
    split at hs
    · rename_i x ht
      split at hs
      · rename_i g
        have hlt := lt_of_get ht
        have hv := vw_get ht
        rw [idle_view g.1] at hv
        split at hs
        · split at hs <;> cases hs
          refine h.notify fun σ1 h1 => ?_
          refine h1.notified fun σ' h' => ?_
          refine h'.congr fun u _ => ?_
          by_cases e : u = t <;> simp [upd, e, hv]
        · rename_i v
          split at hs
          · rename_i y hy
            split at hs <;> cases hs
            rename_i ha
            have hmem : v ∈ waiters b c := List.mem_filter.mpr ⟨List.mem_range.mpr (lt_of_get hy), by simp [hy, ha]⟩
            obtain ⟨hlv, y', m, st, d, hy', hp⟩ := mem_waiters hmem
            rw [hy] at hy'; cases hy'
            have hvv := (waiters_view hmem).2
            have hne : v ≠ t := fun e => by subst e; rw [hv] at hvv; cases hvv
            have hne' : t ≠ v := fun e => hne e.symm
            refine h.notify fun σ1 h1 => ?_
            refine h1.woken (c := c) hlv (by simp [upd, hne, hvv]) fun σ2 h2 => ?_
            refine h2.notified fun σ' h' => ?_
            have h'' : Ok true b.ts.length (upd (vw b) v ⟨some (.woken c), none⟩) dead σ' := by
              refine h'.congr fun u _ => ?_
              by_cases e : u = t
              · subst e; simp [upd, hv, hne']
              · by_cases e2 : u = v
                · subst e2; simp [upd, hvv, hne]
                · simp [upd, e, e2]
            exact after hlv h'' rfl (by simp [CondVar.wake, hp, view])
          · cases hs
      · cases hs
    · cases hs
  | notifyAll t c =>
    simp only [CondVar.step] at hs
    split at hs
    · rename_i x ht
      split at hs <;> cases hs
      rename_i g
      have hlt := lt_of_get ht
      have hv := vw_get ht
      rw [idle_view g.1] at hv
      simp only [calls, List.nil_append, List.flatMap_cons, List.flatMap_nil, sees, List.append_nil]
      have hnt : t ∉ waiters b c := fun g' => by have := (waiters_view g').2; rw [hv] at this; cases this
      refine h.notify fun σ1 h1 => ?_
      refine h1.wokenOn (c := c) (fun w hw => ?_) fun σ2 h2 => ?_
      · obtain ⟨g1, g2⟩ := waiters_view hw
        have : w ≠ t := fun e => hnt (e ▸ hw)
        exact ⟨g1, by simp [upd, this, g2]⟩
      · refine h2.notified fun σ' h' => ?_
        simp only [Follows, List.length_map]
        refine h'.congr fun u _ => ?_
        refine Eq.trans (vw_wake (b := b) (c := c) (u := u)) ?_
        by_cases e : u = t
        · subst e
          simp [upd, hnt, hv]
        · by_cases e2 : u ∈ waiters b c
          · simp [upd, e, e2, (waiters_view e2).2]
          · simp [upd, e, e2]
    · cases hs
  | interrupt t u =>
    simp only [CondVar.step] at hs
    split at hs
    · rename_i x y ht hu
      split at hs
      · rename_i g
        split at hs
        · cases hs
          exact quiet h hu rfl fun q c hr => hr
        · split at hs <;> cases hs
          rename_i c hc e
          have h1 : Ok true (CondVar.setT b u { y with rq := true, dm := some t }).ts.length (vw (CondVar.setT b u { y with rq := true, dm := some t })) dead σ :=
            quiet h hu rfl fun q c hr => hr
          have ht' : (CondVar.setT b u { y with rq := true, dm := some t }).ts[t]? = some x := by
            have : u ≠ t := fun g' => e g'.symm
            simp [CondVar.setT, List.getElem?_set_ne this, ht]
          exact quiet h1 ht' rfl (by rw [g.1]; exact fun q c hr => hr)
      · cases hs
    · cases hs
  | point t =>
    simp only [CondVar.step] at hs
    split at hs
    · rename_i x ht
      split at hs
      · rename_i g
        (repeat' split at hs) <;> cases hs
        · simp only [calls, List.flatMap_cons, List.flatMap_nil, sees, ht, g, List.append_nil]
          exact quiet h ht rfl (by rw [g]; exact fun q c hr => hr)
        · exact same h rfl
        · exact same h rfl
      · cases hs
    · cases hs
  | isRequested t u =>
    simp only [CondVar.step] at hs
    (repeat' split at hs) <;> cases hs
    exact same h rfl
  | isEnabled t =>
    simp only [CondVar.step] at hs
    (repeat' split at hs) <;> cases hs
    exact same h rfl
  | disable t =>
    simp only [CondVar.step] at hs
    split at hs
    · rename_i x ht
      split at hs <;> cases hs
      exact quiet h ht rfl fun q c hr => hr
    · cases hs
  | restore t d =>
    simp only [CondVar.step] at hs
    split at hs
    · rename_i x ht
      (repeat' split at hs) <;> cases hs
      all_goals exact quiet h ht rfl fun q c hr => hr
    · cases hs
  | endScope t =>
    simp only [CondVar.step] at hs
    split at hs
    · rename_i x ht
      (repeat' split at hs) <;> cases hs <;> exact quiet h ht rfl fun q c hr => hr
    · cases hs

theorem R.init (n : Nat) : R (Posix.init n) (start n) := by
  refine ⟨?_, CondVar.init_inv n⟩
  have := Ok.init (strict := true) (n := n)
  simp only [Posix.init, CondVar.init, List.length_replicate]
  refine this.congr fun t ht => ?_
  simp [vw, List.getElem?_replicate, ht, view, CondVar.Thr.new]

/-- What a thread uses next has not been destroyed. -/
theorem R.alive {s : State} (h : R s σ) {l : CondVar.Label} {c : Nat} (hc : touched s.base l = some c) : s.dead c = false := by
  cases l <;> simp [touched] at hc
  rename_i t
  split at hc
  · rename_i x ht
    have hlt := lt_of_get ht
    have hv := vw_get ht
    cases hp : x.pc with
    | w1 c' m st d =>
      simp [hp, touches] at hc; subst hc; rw [hp] at hv
      exact h.ok.alive hlt (by rw [hv]; exact Or.inl rfl)
    | w3 c' m st d =>
      simp [hp, touches] at hc; subst hc; rw [hp] at hv
      exact h.ok.alive hlt (by rw [hv]; exact Or.inr (Or.inl rfl))
    | woke c' m st d =>
      simp [hp, touches] at hc; subst hc; rw [hp] at hv
      exact h.ok.alive hlt (by rw [hv]; exact Or.inr (Or.inr (Or.inl ⟨rfl, rfl⟩)))
    | i1 u c' =>
      simp [hp, touches] at hc; subst hc
      obtain ⟨-, y, hy, -, hcur⟩ := h.inv.i1 t x u c' ht hp
      have hl := (h.inv.loc u y hy).cur
      rw [hcur] at hl
      have hvu := vw_get hy
      refine h.ok.alive (lt_of_get hy) ?_
      rw [hvu]
      cases hq : y.pc <;> rw [hq] at hl <;> simp only [CondVar.curOf] at hl
      all_goals first
        | (split at hl <;> simp_all [view])
        | simp_all [view]
    | _ => simp [hp, touches] at hc
  · cases hc

theorem follows_mono {P Q : Spec → Prop} {es : List Event} (h : Follows (next true) P σ es) (hpq : ∀ σ', P σ' → Q σ') : Follows (next true) Q σ es := by
  induction es generalizing σ with
  | nil => exact hpq _ h
  | cons e es ih =>
    simp only [Follows] at h ⊢
    split
    · rename_i σ' e'; rw [e'] at h; exact ih h
    · trivial
    · rename_i e'; rw [e'] at h; exact h

theorem proceed_sim {s s' : State} {l : CondVar.Label} {es : List Event} (h : R s σ) (hs : proceed s l = some (s', es)) : Follows (next true) (R s') σ es := by
  unfold proceed at hs
  split at hs <;> cases hs
  rename_i b' es' hb
  have hi := (CondVar.sim_step h.inv hb).1
  exact follows_mono (base_sim h.ok h.inv hb) fun σ' h' => ⟨h', hi⟩

theorem sim {s s' : State} {l : Label} {es : List Event} (h : R s σ) (hs : step s l = some (s', es)) : Follows (next true) (R s') σ es := by
  cases l with
  | base l =>
    simp only [step] at hs
    split at hs
    · rename_i c hc
      rw [h.alive hc] at hs
      exact proceed_sim h hs
    · exact proceed_sim h hs
  | destroy c =>
    simp only [step] at hs; cases hs
    exact h.ok.destroyed fun σ' h' => ⟨h', h.inv⟩

end Verif.CondLife.Posix
